U="src/univariate/"
p("C53","Continuous uniform","For width > 0: cdf is the distribution function of the uniform law on [lb, lb+width], pdf its density, quantile its inverse on [0,1], mean/variance/skewness/kurtosis its moments, entropy ln width.","all lb, width > 0, x, p",ALLX,U+"uniform.rs: Uniform<f64>")
p("C54","Discrete uniform","For width > 0: pmf is 1/(width+1) on {lb..lb+width} and 0 elsewhere, sums to 1, cdf(k) is the sum of pmf up to k, mean/variance are its moments.","all lb, width within i64, k",ALLX,U+"uniform.rs: Uniform<i64>")
p("C55","Discrete uniform quantile","quantile(p) = inf{k : p <= cdf(k)}.","all parameters, p in [0,1]",ALLX,U+"uniform.rs: quantile (i64)")
p("C56","Degenerate laws","cdf is the unit step at k, pmf(k)=1 and 0 elsewhere, mean=median=k, variance 0, entropy 0, sample always k.","all k, x, RNG states",ALLX,U+"degenerate.rs")
p("C57","Arcsine","pdf is the derivative of cdf inside the support, cdf runs from 0 to 1 and is monotone, cdf(median)=1/2, mean symmetric, variance = width^2/8.","all a, w > 0, x",ALLX,U+"arcsine.rs")
p("C58","Arcsine entropy","shannon_entropy is the differential entropy ln(pi w/4).","all a, w > 0",ALLX,U+"arcsine.rs: shannon_entropy")
p("C59","Cauchy","cdf is the distribution function of the Cauchy law, pdf its derivative and density, quantile its inverse, median/mode x0, fwhm 2 gamma: pdf(x0 +- gamma) = pdf(x0)/2.","all x0, gamma > 0, x, p in (0,1)",ALLX,U+"cauchy.rs")
p("C60","Cauchy convolution","convolve adds locations and scales (commutative, associative in exact arithmetic).","all pairs",ALLX,U+"cauchy.rs: convolve")
p("C61","Exponential law on its support","For x >= 0 cdf/pdf are those of the exponential law with rate lambda; mean 1/lambda, variance 1/lambda^2; cdf(median)=1/2; entropy 1 - ln lambda; memoryless: ccdf(s+t)=ccdf(s)ccdf(t).","all lambda > 0, x >= 0",ALLX,U+"exponential.rs")
p("C62","Exponential off its support","cdf(x) and pdf(x) are 0 for x < 0 and cdf always is a valid Probability.","all x",ALLX,U+"exponential.rs: cdf, pdf")
p("C63","Exponential quantile","cdf(quantile(p)) = p.","all p in [0,1)",ALLX,U+"exponential.rs: quantile")
p("C64","Exponential kurtosis and Fisher information","kurtosis = excess_kurtosis + 3 = 9; Fisher information is 1/lambda^2.","all lambda > 0",ALLX,U+"exponential.rs")
p("C65","Laplace","cdf is the Laplace distribution function and pdf its density; moments, entropy, median and mode are those of the law, kurtosis=excess+3, and sampling inverts the distribution function.","all mu, b > 0, x",ALLX,U+"laplace.rs")
p("C66","Logistic","pdf is the derivative of cdf; cdf monotone from 0 to 1; median inverts cdf; mean, variance, skewness, kurtosis, entropy and mode are those of the logistic law.","all mu, s > 0, x",ALLX,U+"logistic.rs")
p("C67","Gumbel","pdf is the derivative of cdf; cdf monotone from 0 to 1; cdf(median) = 1/2; the mode maximises pdf; mean, variance, skewness, kurtosis (= excess + 3) and entropy are those of the law.","all mu, beta > 0, x",ALLX,U+"gumbel.rs")
p("C68","Frechet","pdf is the derivative of cdf on the support; cdf(median)=1/2; the mode maximises pdf; mean, variance, skewness, excess kurtosis are the moments where they exist and infinite exactly where they do not (alpha <= 1,2,3,4); entropy.","all parameters, x",ALLX,U+"frechet.rs")
p("C69","Frechet sampling","sample applies the inverse cdf to a uniform draw: cdf(sample)=u.","all draws",HIST,U+"frechet.rs: sample")
p("C70","Weibull","pdf is the density of cdf; cdf(median)=1/2; cdf is 0 at and below 0; mean, variance, skewness, excess kurtosis and entropy are those of the law.","all lambda, k > 0, x",ALLX,U+"weibull.rs")
p("C71","Weibull mode","modes are the maximisers of pdf.","all lambda, k > 1",ALLX,U+"weibull.rs: modes")
p("C72","Kumaraswamy","pdf is the derivative of cdf on (0,1); cdf(median)=1/2; inverse-cdf sampling: cdf(sample from u) is uniform; interior mode maximises pdf.","all a,b > 0, x",ALLX,U+"kumaraswamy.rs")
p("C73","Pareto","On x >= x_m cdf/pdf are those of the Pareto law; cdf(median)=1/2; mean, variance, skewness, kurtosis are the moments where they exist (alpha > 1,2,3,4) and infinite/refused exactly where they do not; mode x_m; entropy.","all alpha > 0, x_m > 0, x >= x_m",ALLX,U+"pareto.rs")
p("C74","Pareto off its support and parameter check","cdf(x)=0 for x < x_m; x_m <= 0 is refused.","all x",ALLX,U+"pareto.rs")
p("C75","Rayleigh","pdf is the derivative of cdf, cdf(median)=1/2; mean, variance, skewness, kurtosis, entropy and mode are those of the Rayleigh law.","all sigma > 0, x >= 0",ALLX,U+"rayleigh.rs")
p("C76","Triangular","cdf is continuous monotone from 0 to 1, pdf its derivative, cdf(median)=1/2, mode c maximises pdf, variance as for the triangular law.","all a, b, c",ALLX,U+"triangular.rs")
p("C77","Triangular mean","mean = (a+b+c)/3.","all a,b,c",ALLX,U+"triangular.rs: mean")
p("C78","Cosine","cdf monotone from 0 to 1 on the support; pdf is its derivative.","all mu, s > 0, x",ALLX,U+"cosine.rs")
p("C79","Generalised Pareto","On its support pdf is the density of cdf, cdf(median)=1/2, cdf monotone from 0 to 1, entropy.","all mu, sigma > 0, zeta > 0, x",ALLX,U+"gpd.rs")
p("C80","Generalised Pareto mean/variance domain","mean is returned exactly when it exists (zeta < 1), variance exactly when zeta < 1/2 (skewness 1/3, kurtosis 1/4).","all zeta > 0",ALLX,U+"gpd.rs: mean, variance")
p("C81","Generalised extreme value","On its support pdf is the density of cdf (shape above the 1e-7 switch), cdf(median)=1/2; moments where they exist and infinite exactly where they do not; mode; entropy.","all parameters, x",ALLX,U+"gev.rs")
p("C82","Poisson","pmf is the Poisson mass lambda^k e^-lambda/k! (up to the ln k! table/Stirling accuracy), mean = variance = lambda.","all lambda > 0, k",ALLX,U+"poisson.rs")
p("C83","Poisson convolution","convolve returns the law of the sum of independent Poissons.","all pairs",ALLX,U+"poisson.rs: convolve")
p("C84","Poisson likelihood, score, MLE","log_likelihood is additive; score is its derivative in lambda; fit_mle returns the sample mean, the maximiser, and refuses empty/all-zero data.","all samples of every length",LIST,U+"poisson.rs")
p("C85","Bernoulli pmf and moments","pmf(true)=p, pmf(false)=1-p (sums to 1), mean p, variance p(1-p), kurtosis = excess+3, MLE = fraction of true, refuses empty data.","all p, all samples",LIST,U+"bernoulli.rs")
p("C86","Bernoulli cdf","cdf(false)=1-p and cdf(true)=1.","all p",ALLX,U+"bernoulli.rs: cdf")
p("C87","Bernoulli/Binomial convolution","Bernoulli+Bernoulli and Binomial+Bernoulli/Binomial with equal p give Binomial with added counts, whose pmf is the convolution of the pmfs; different p is refused.","all n,m,p,k",ALLX,U+"bernoulli.rs: convolve",U+"binomial.rs: convolve")
p("C88","Binomial","pmf is C(n,k)p^k q^(n-k), sums to 1, mean np, variance npq.","all n <= 61, p, k <= n",ALLX,U+"binomial.rs")
p("C89","Binomial support and kurtosis","support is {0..n}; kurtosis is the fourth standardised moment.","all n,p",ALLX,U+"binomial.rs: support, kurtosis")
p("C90","Geometric","pmf(k) = p q^k sums to 1, cdf(k) = sum of pmf up to k for every k, mean q/p and variance q/p^2.","all p in (0,1), k",ALLX,U+"geometric.rs")
p("C91","Categorical pmf, sampling, modes","pmf(i)=p_i for i<N and panics otherwise, sampling picks i by weight, modes are exactly the indices of maximal probability in increasing order.","all simplex vectors",LIST,U+"categorical.rs")
p("C92","Categorical cdf","cdf(i) = sum_{j<=i} p_j, so cdf(N-1)=1.","all simplex vectors",LIST,U+"categorical.rs: cdf")
p("C93","Chi-squared","mean k, variance 2k, skewness sqrt(8/k), excess 12/k, mode max(k-2,0) maximises pdf; convolution adds degrees of freedom.","all k",ALLX,U+"chi_sq.rs")
p("C94","Chi-squared convolution accepts all pairs","convolve(k1,k2) succeeds for all degrees of freedom.","all k1,k2",ALLX,U+"chi_sq.rs: convolve")
p("C95","Gamma family cdfs are consistent","Chi.cdf(x) = ChiSq.cdf(x^2) and ChiSq(k) = Gamma(k/2, 1/2) have equal cdfs.","all k, x > 0",ALLX,U+"chi.rs",U+"chi_sq.rs",U+"gamma.rs")
p("C96","Gamma","pdf is the Gamma(alpha, rate beta) density; mean alpha/beta, variance alpha/beta^2; mode maximises pdf for alpha >= 1.","all alpha, beta > 0",ALLX,U+"gamma.rs")
p("C97","Gamma convolution","convolve succeeds exactly for equal rates and returns Gamma(a1+a2, rate).","all pairs",ALLX,U+"gamma.rs: convolve")
p("C98","Beta","pdf is the Beta(alpha,beta) density, mean alpha/(alpha+beta), variance the Beta variance, interior mode maximises pdf.","all alpha, beta > 0, x",ALLX,U+"beta.rs")
p("C99","Log-normal","cdf(x) = normal cdf of ln x; pdf is its derivative; mean/variance agree with it.","all mu, sigma, x > 0",ALLX,U+"lognormal.rs")
p("C100","Dirichlet","mean alpha/alpha0, variance = diag covariance, covariance matrix symmetric with zero row sums.","all alpha",ALLX,"src/multivariate/dirichlet.rs")
p("C101","Dirichlet sampling","samples lie on the simplex (sum to 1).","all alpha, all draws",HIST,"src/multivariate/dirichlet.rs: sample")
p("C102","Multinomial moments","mean n p_i, covariance n(diag p - p p^T), variance its diagonal, correlation = cov normalised.","all n, p",ALLX,"src/multivariate/multinomial.rs")
p("C103","Multinomial pmf is defined on its support","pmf(x) returns n!/prod x_i! prod p_i^x_i when sum x = n and 0 otherwise.","all n, p, x",ALLX,"src/multivariate/multinomial.rs: pmf, log_pmf")
p("C104","Multivariate log-normal covariance","covariance(i,j) = exp(mu_i+mu_j+(S_ii+S_jj)/2)(exp(S_ij)-1) for all i,j; symmetric.","all dimensions, all parameters",ALLX,"src/multivariate/lognormal.rs: covariance")
p("C105","Multivariate normal density","pdf(x) = exp(-(x-mu)^T Sigma^{-1} (x-mu)/2) / sqrt((2 pi)^n det Sigma), a density of total mass 1, for general, diagonal and isotropic covariances.","all dimensions, all parameters, all x",ALLX,"src/normal/multivariate.rs: pdf")
p("C106","A pdf integrates to 1: degenerate law","Where a continuous distribution offers pdf, it is the density of its cdf (total mass 1): for the f64 degenerate law no density exists, so pdf should not return a finite positive function.","all k",ALLX,U+"degenerate.rs: pdf")
p("C107","Arcsine off its support","cdf is 0 below the support and 1 above it and always a valid Probability; pdf is 0 off the support.","all a, w > 0, x",ALLX,U+"arcsine.rs: cdf, pdf")
p("C108","Frechet off its support","cdf(x) is 0 for x < 0 and always a valid Probability.","all alpha > 0, x < 0",ALLX,U+"frechet.rs: cdf, pdf")
p("C109","Rayleigh off its support","cdf(x) and pdf(x) are 0 for x < 0.","all sigma > 0, x < 0",ALLX,U+"rayleigh.rs: cdf, pdf")
p("C110","Pareto Fisher information","fisher_information is the Fisher information matrix of the Pareto family in (x_m, alpha).","all x_m, alpha > 0",ALLX,U+"pareto.rs: fisher_information")
p("C111","Generalised Pareto / extreme value below the support","cdf is 0 and pdf 0 below the left end of the support, and cdf is always a valid Probability.","all parameters, x below the support",ALLX,U+"gpd.rs: cdf, pdf",U+"gev.rs: cdf, pdf")
p("C112","Generalised extreme value with tiny shape","pdf is the derivative of cdf also for 0 < zeta < 1e-7.","all parameters with zeta < 1e-7, x",ALLX,U+"gev.rs: t_func, pdf")
p("C113","Kumaraswamy entropy","shannon_entropy is the differential entropy of the Kumaraswamy law (with the generalised harmonic number of b).","all a, b > 0",ALLX,U+"kumaraswamy.rs: shannon_entropy, harmonic_n")
p("C114","Kumaraswamy off its support","cdf(x) is 0 for x < 0 and 1 for x > 1 and always a valid Probability.","all a, b > 0, x outside [0,1]",ALLX,U+"kumaraswamy.rs: cdf")
p("C115","Cosine off its support","cdf(x) is 0 below mu - s, 1 above mu + s, always a valid Probability.","all mu, s > 0, x outside the support",ALLX,U+"cosine.rs: cdf")
p("C116","Cosine kurtosis","excess_kurtosis is the fourth standardised moment of the raised-cosine law minus 3.","all mu, s > 0",ALLX,U+"cosine.rs: excess_kurtosis")
p("C117","Triangular entropy","shannon_entropy is the differential entropy 1/2 + ln((b-a)/2).","all a < c < b",ALLX,U+"triangular.rs: shannon_entropy")
p("C118","Bernoulli kurtosis","kurtosis is the fourth standardised moment and excess_kurtosis is that minus 3.","all p in (0,1)",ALLX,U+"bernoulli.rs: kurtosis, excess_kurtosis")
p("C119","Bernoulli median, modes, entropy","median is a median, modes are exactly the most likely values, shannon_entropy is the entropy in nats.","all p in [0,1]",ALLX,U+"bernoulli.rs: median, modes, shannon_entropy")
p("C120","Bernoulli likelihood, Fisher information, score","log_likelihood is the (additive) sum of log-masses, fisher_information is 1/(p q), score is the derivative of the log-likelihood.","all p in (0,1), all samples",ALLX,U+"bernoulli.rs: log_likelihood, fisher_information, score")
p("C121","Binomial cdf","cdf(k) is the sum of the masses up to k.","all n, p, k",ALLX,U+"binomial.rs: cdf")
p("C122","Binomial modes, median, entropy","modes are the most likely counts, median is a median, shannon_entropy is the entropy of the law.","all n, p",ALLX,U+"binomial.rs: modes, median, shannon_entropy")
p("C123","Geometric shape and mode","skewness and kurtosis are the standardised moments of the geometric law and 0 is its only mode.","all p in (0,1)",ALLX,U+"geometric.rs: skewness, excess_kurtosis, modes")
p("C124","Geometric median and entropy","median is a median of the law and shannon_entropy its entropy in nats.","all p in (0,1]",ALLX,U+"geometric.rs: median, shannon_entropy")
p("C125","Poisson kurtosis, Fisher information, median, modes, entropy","kurtosis is the fourth standardised moment, fisher_information is 1/lambda, median is a median, modes are the most likely counts, shannon_entropy is the entropy.","all lambda > 0",ALLX,U+"poisson.rs: kurtosis, fisher_information, median, modes, shannon_entropy")
p("C126","Geometric parameter range","Every parameter accepted by Geometric::new defines a probability law (masses sum to 1).","all p accepted by new",ALLX,U+"geometric.rs: new")
p("C127","Categorical support","support is {0..N-1}; pmf is defined on all of it.","all weight vectors",ALLX,U+"categorical.rs: support, pmf")
p("C128","Gamma cdf","cdf(x) is the integral of the Gamma(alpha, beta) density up to x (0 for x <= 0), a valid Probability.","all alpha, beta > 0, x",ALLX,U+"gamma.rs: cdf")
p("C129","Gamma log-likelihood","log_likelihood of a sample is the sum of the logs of the Gamma density at its points.","all alpha, beta > 0, all samples",ALLX,U+"gamma.rs: log_likelihood")
p("C130","Gamma score","score is the gradient of the Gamma log-likelihood in (alpha, beta).","all alpha, beta > 0, all samples",ALLX,U+"gamma.rs: score")
p("C131","Gamma plus exponential","Gamma(a, l).convolve(Exponential(l)) is the law of the independent sum; different rates are refused.","all a > 0, all rates",ALLX,U+"gamma.rs: Convolution<Exponential>")
p("C132","Chi-squared cdf","cdf(x) is the integral of the chi-squared density up to x.","all k >= 1, x",ALLX,U+"chi_sq.rs: cdf")
p("C133","Chi-squared median","median halves the probability mass.","all k >= 1",ALLX,U+"chi_sq.rs: median")
p("C134","Chi law","pdf, cdf, mean, variance, skewness, kurtosis and mode of Chi(k) are those of the square root of a chi-squared variable.","all k >= 1, x",ALLX,U+"chi.rs")
p("C135","Chi entropy","shannon_entropy is the differential entropy of the chi law.","all k >= 1",ALLX,U+"chi.rs: shannon_entropy")
p("C136","Chi median","median halves the probability mass.","all k >= 1",ALLX,U+"chi.rs: median")
p("C137","Erlang moments and mode","mean, variance, skewness, kurtosis and mode are those of the Gamma(k, lambda) law.","all k >= 1, lambda > 0",ALLX,U+"erlang.rs: mean, variance, skewness, excess_kurtosis, modes")
p("C138","Erlang density","pdf(x) is the Gamma(k, lambda) density at x.","all k >= 1, lambda > 0, x > 0",ALLX,U+"erlang.rs: pdf, log_pdf")
p("C139","Erlang cdf","cdf(x) is the integral of the Gamma(k, lambda) density up to x.","all k >= 1, lambda > 0, x > 0",ALLX,U+"erlang.rs: cdf")
p("C140","Inverse-gamma law","pdf is the inverse-gamma density, mean, variance, skewness, kurtosis exist exactly for alpha > 1, 2, 3, 4 and are returned then and refused otherwise; mode beta/(alpha+1).","all alpha, beta > 0, x > 0",ALLX,U+"inverse_gamma.rs")
p("C141","Inverse-gamma cdf","cdf is the (non-decreasing) integral of the density.","all alpha, beta > 0, x > 0",ALLX,U+"inverse_gamma.rs: cdf")
p("C142","Beta kurtosis","kurtosis is the fourth standardised moment of the Beta law.","all alpha, beta > 0",ALLX,U+"beta.rs: excess_kurtosis")
p("C143","Beta median","median halves the probability mass.","all alpha, beta > 0",ALLX,U+"beta.rs: median")
p("C144","Beta modes","modes returns the maximisers of the density.","all alpha, beta > 0",ALLX,U+"beta.rs: modes")
p("C145","Beta log-likelihood","log_likelihood of a sample from the unit interval is the sum of the logs of the Beta density at its points.","all alpha, beta > 0, all samples",ALLX,U+"beta.rs: log_likelihood")
p("C146","Beta score","score is the gradient of the Beta log-likelihood in (alpha, beta).","all alpha, beta > 0, all samples",ALLX,U+"beta.rs: score")
p("C147","Beta density is never negative","pdf(x) >= 0 for every x it is defined at.","all alpha, beta > 0, all x",ALLX,U+"beta.rs: pdf")
p("C148","Beta prime law","pdf and cdf are those of the Beta prime law; mean, variance and skewness are returned exactly when they exist (beta > 1, 2, 3) and are then the law's; modes are its maximisers.","all alpha, beta > 0, x",ALLX,U+"beta_prime.rs")
p("C149","Beta prime kurtosis","kurtosis is the fourth standardised moment.","all alpha > 0, beta > 4",ALLX,U+"beta_prime.rs: excess_kurtosis")
p("C150","Beta prime entropy","shannon_entropy is the differential entropy of the Beta prime law.","all alpha, beta > 0",ALLX,U+"beta_prime.rs: shannon_entropy")
p("C151","F law","pdf and cdf are those of Fisher's F law; mean and variance are returned exactly when they exist (d2 > 2, 4); the mode is the maximiser.","all d1, d2 >= 1, x",ALLX,U+"f_dist.rs")
p("C152","F skewness","skewness is returned exactly when it exists (d2 > 6) and is then the law's.","all d1, d2 >= 1",ALLX,U+"f_dist.rs: skewness")
p("C153","F kurtosis","kurtosis is the fourth standardised moment when d2 > 8.","all d1 >= 1, d2 > 8",ALLX,U+"f_dist.rs: excess_kurtosis")
p("C154","F entropy","shannon_entropy is the differential entropy of the F law.","all d1, d2 >= 1",ALLX,U+"f_dist.rs: shannon_entropy")
p("C155","Student t parameter range","Every degrees-of-freedom value accepted by StudentT::new defines a probability law.","all values accepted by new",ALLX,U+"student_t.rs: new")
p("C156","Student t law","pdf is the Student density; mean, variance, skewness, kurtosis are returned exactly when they exist (nu > 1, 2, 3, 4) and are then the law's; median 0 and mode 0 are right.","all nu > 0, x",ALLX,U+"student_t.rs")
p("C157","Student t cdf","cdf(x) is the integral of the Student density up to x, a valid Probability.","all nu > 0, x",ALLX,U+"student_t.rs: cdf")
p("C158","Student t entropy","shannon_entropy is the differential entropy of the Student law.","all nu > 0",ALLX,U+"student_t.rs: shannon_entropy")
p("C159","Beta-binomial law","pmf(k) is the binomial mass averaged over a Beta(alpha, beta) success probability, the masses sum to 1, mean and variance are the law's.","all n, alpha, beta > 0, k <= n",ALLX,U+"beta_binomial.rs: pmf, mean, variance")
p("C160","Beta-binomial skewness","skewness is the third standardised moment.","all n >= 1, alpha, beta > 0",ALLX,U+"beta_binomial.rs: skewness")
p("C161","Beta-binomial kurtosis","kurtosis is the fourth standardised moment.","all n >= 1, alpha, beta > 0",ALLX,U+"beta_binomial.rs: kurtosis")
p("C162","Beta-binomial support and cdf","support is {0..n}, the values of positive mass; cdf(k) is the sum of the masses up to k.","all n, alpha, beta > 0, k",ALLX,U+"beta_binomial.rs: support, cdf")
p("C163","Levy law","pdf is the Levy density above mu, which integrates to the Levy cdf; no moment exists and mean/variance are infinite, skewness and kurtosis are refused; the entropy is the law's.","all mu, c > 0, x > mu",ALLX,U+"levy.rs")
p("C164","Levy density at the edge of the support","pdf(x) is a number, 0, at x = mu and below.","all mu, c > 0, x <= mu",ALLX,U+"levy.rs: pdf, support")
p("C165","Levy cdf","cdf(x) is the integral of the Levy density up to x, a valid probability at every x.","all mu, c > 0, x",ALLX,U+"levy.rs: cdf")
p("C166","Levy mode and median","modes returns the maximiser of the density, median the point halving the mass, for every location.","all mu, c > 0",ALLX,U+"levy.rs: modes, median")
p("C167","Log-normal skewness and kurtosis","skewness and kurtosis are the third and fourth standardised moments of the law with distribution function cdf.","all mu, v > 0",ALLX,U+"lognormal.rs: skewness, kurtosis")
p("C168","Log-normal mode","modes returns the maximiser of the density of the law with distribution function cdf.","all mu, v > 0",ALLX,U+"lognormal.rs: modes")
p("C169","Log-normal entropy","shannon_entropy is the differential entropy of the law with distribution function cdf.","all mu, v > 0",ALLX,U+"lognormal.rs: shannon_entropy")
p("C170","Log-normal Fisher information","fisher_information is the Fisher information of the family in its two parameters.","all mu, v > 0",ALLX,U+"lognormal.rs: fisher_information")
p("C171","Log-normal sampling","sample has the law with distribution function cdf.","all mu, v > 0, all generators",ALLX,U+"lognormal.rs: sample")
p("C172","Log-normal below the support","pdf(x) and cdf(x) are 0 for x < 0.","all mu, v > 0, x < 0",ALLX,U+"lognormal.rs: pdf, cdf")
p("C173","Folded normal law","pdf and cdf are those of |N(mu, sigma^2)| on [0, inf); mean, variance and precision agree; sample has that law; half_normal and standard are the mu = 0 cases.","all mu, sigma > 0, x >= 0, all generators",ALLX,U+"folded_normal.rs")
p("C174","Folded normal below the support","pdf(x) and cdf(x) are 0 for x < 0.","all mu, sigma > 0, x < 0",ALLX,U+"folded_normal.rs: pdf, cdf")
p("C175","Folded normal mode","modes returns a maximiser of the density.","all mu, sigma > 0",ALLX,U+"folded_normal.rs: modes")
p("C176","Folded normal skewness and kurtosis","skewness and kurtosis, which exist for every parameter, are returned.","all mu, sigma > 0",ALLX,U+"folded_normal.rs: skewness, kurtosis, excess_kurtosis")
p("C177","Inverse Gaussian law","pdf is the inverse Gaussian density on x > 0; mean, variance and skewness are the law's; modes returns its unique maximiser; all constructors agree.","all mu, lambda > 0, x > 0",ALLX,U+"inverse_normal.rs")
p("C178","Inverse Gaussian cdf","cdf(x) is the integral of the density up to x, a valid probability.","all mu, lambda > 0, x > 0",ALLX,U+"inverse_normal.rs: cdf")
p("C179","Inverse Gaussian kurtosis","kurtosis is the fourth standardised moment.","all mu, lambda > 0",ALLX,U+"inverse_normal.rs: excess_kurtosis")
p("C180","Inverse Gaussian entropy","shannon_entropy is the differential entropy of the law.","all mu, lambda > 0",ALLX,U+"inverse_normal.rs: shannon_entropy")
p("C181","Inverse Gaussian sampling","sample has exactly the inverse Gaussian law when its normal and uniform draws are ideal and independent.","all mu, lambda > 0, all generators",ALLX,U+"inverse_normal.rs: sample")
p("C182","Inverse Gaussian below the support","pdf(x) is 0 for x < 0.","all mu, lambda > 0, x < 0",ALLX,U+"inverse_normal.rs: pdf")
p("C183","Multinomial support","support() is the set of count vectors of positive mass.","all n, p, count vectors",ALLX,"src/multivariate/multinomial.rs: support")
p("C184","Multinomial counts near usize::MAX","pmf and log_pmf treat a count vector by its true total: no panic, and no mass to vectors whose total is not n.","all n, p, count vectors with entries below 2^64, both build profiles",ALLX,"src/multivariate/multinomial.rs: pmf, log_pmf")
p("C185","Dirichlet density off the simplex","pdf(x) is 0 when x is not a point of the simplex.","all alpha, x",ALLX,"src/multivariate/dirichlet.rs: pdf")
p("C186","Dirichlet density on the boundary","pdf(x) is a number at every vector of numbers.","all alpha, x",ALLX,"src/multivariate/dirichlet.rs: pdf, log_pdf")
p("C187","Dirichlet mode","modes() returns a maximiser of the density on the simplex, and none when there is none.","all alpha",ALLX,"src/multivariate/dirichlet.rs: modes")
p("C188","Multivariate log-normal mean and variance","mean() and variance() are the mean and variance of each coordinate of the exponential of the Gaussian vector, for the general, diagonal and isotropic forms.","all dimensions, means, positive definite covariances",ALLX,"src/multivariate/lognormal.rs: mean, variance")
p("C189","Multivariate log-normal density","pdf(x) is the density, at x with positive coordinates, of the exponential of the Gaussian vector.","all dimensions, parameters, x",ALLX,"src/multivariate/lognormal.rs: pdf")
p("C190","Multivariate log-normal sampling","sample() consumes what the normal sampler consumes, and with ideal normal draws has the law whose moments are returned.","all dimensions, parameters, generators",HIST,"src/multivariate/lognormal.rs: sample")
SRC="all parameters, all random sources whose elementary draws have the laws documented by rand and rand_distr"
p("C191","Exponential, Cauchy, Weibull, triangular and uniform sampling","sample() never panics and its value has exactly the law whose density pdf() returns.",SRC,HIST,U+"exponential.rs, cauchy.rs, weibull.rs, triangular.rs, uniform.rs: sample")
p("C192","Pareto sampling","sample() of a constructed Pareto distribution never panics and has the Pareto law.",SRC,HIST,U+"pareto.rs: new, sample")
p("C193","Gamma sampling","sample() has the Gamma law with the given shape and rate, the one pdf() describes.",SRC,HIST,U+"gamma.rs: sample, Into<rand_distr::Gamma>")
p("C194","Beta, chi-squared and F sampling","sample() never panics and has the Beta, chi-squared or Fisher law with the given parameters.",SRC,HIST,U+"beta.rs, chi_sq.rs, f_dist.rs: sample")
p("C195","Student sampling","sample() of a constructed Student distribution never panics and has Student's law.",SRC,HIST,U+"student_t.rs: new, sample")
p("C196","Bernoulli, binomial and Poisson sampling","sample() never panics and takes each value with the probability that pmf() returns (for Poisson, each value below u64::MAX).",SRC,HIST,U+"bernoulli.rs, binomial.rs, poisson.rs: sample")
p("C197","Kumaraswamy and Laplace sampling","sample() has the Kumaraswamy or Laplace law.",SRC,HIST,U+"kumaraswamy.rs, laplace.rs: sample")
p("C198","A sampler for every distribution","sample() of a constructed distribution returns a value.","all distributions, parameters and sources",HIST,U+"arcsine.rs, beta_binomial.rs, beta_prime.rs, chi.rs, cosine.rs, erlang.rs, gev.rs, gpd.rs, gumbel.rs, inverse_gamma.rs, levy.rs, logistic.rs, rayleigh.rs: sample")
p("C199","Discrete uniform sampling","sample() of a constructed discrete uniform distribution never panics and is uniform on the support.",SRC+", both build profiles",HIST,U+"uniform.rs: sample")
p("C200","Fréchet sampling","sample() has the Fréchet law.",SRC,HIST,U+"frechet.rs: sample")
p("C201","Geometric sampling","sample() takes each value with the probability that pmf() returns.",SRC,HIST,U+"geometric.rs: sample")
FPX="all finite parameters accepted by the constructor; all f64 arguments of the interval, signed zeros and infinities included; IEEE rounded arithmetic (any correctly rounding + - * / sqrt with monotone library functions, binary64 in particular)"
p("C202","Floating-point distribution functions on the whole line","In rounded IEEE arithmetic, Logistic, Gumbel and Weibull cdf(x) is never NaN, lies in [0,1], is non-decreasing in x over all f64, is exactly 0 at the left end of the support and exactly 1 at +inf.",FPX,ALLX,U+"logistic.rs, gumbel.rs, weibull.rs: cdf")
p("C203","Floating-point distribution functions with one-sided or bounded support","In rounded IEEE arithmetic, Exponential, Pareto, Kumaraswamy and Frechet cdf(x) is a non-decreasing map into [0,1] for every f64 x.",FPX,ALLX,U+"exponential.rs, pareto.rs, kumaraswamy.rs, frechet.rs: cdf")
p("C204","Floating-point distribution functions over special functions","In rounded IEEE arithmetic with monotone special functions, Normal, LogNormal, FoldedNormal, Beta, Chi and Levy cdf(x) is non-decreasing on the support, lies in [0,1], and is exactly 0 and 1 at its ends.",FPX,ALLX,U+"normal.rs, lognormal.rs, folded_normal.rs, beta.rs, chi.rs, levy.rs: cdf")
p("C205","Floating-point Cauchy and Arcsine distribution functions","In rounded IEEE arithmetic, Cauchy and Arcsine cdf(x) is non-decreasing, never NaN and lies in [0,1] (is accepted as a Probability) for every f64 x.",FPX,ALLX,U+"cauchy.rs, arcsine.rs: cdf")
p("C206","Floating-point uniform distribution function","In rounded IEEE arithmetic, Uniform<f64> cdf(x) is non-decreasing and in [0,1], 0 at the lower and 1 at the upper end, for every pair of ends the constructor accepts.",FPX,ALLX,U+"uniform.rs: cdf")
p("C207","Floating-point Rayleigh, triangular and cosine distribution functions","In rounded IEEE arithmetic, Rayleigh, Triangular and Cosine cdf(x) is non-decreasing and in [0,1] for every f64 x, with 0 and 1 at the ends of the support.",FPX,ALLX,U+"rayleigh.rs, triangular.rs, cosine.rs: cdf")
p("C208","Floating-point beta prime and F distribution functions","In rounded IEEE arithmetic with a monotone incomplete beta function, BetaPrime and FDist cdf(x) is non-decreasing and in [0,1] on [0, +inf], and 1 at +inf.",FPX,ALLX,U+"beta_prime.rs, f_dist.rs: cdf")
p("C209","Floating-point generalised Pareto and extreme value distribution functions","In rounded IEEE arithmetic, GeneralisedPareto and GeneralisedExtremeValue cdf(x) is non-decreasing and in [0,1] for every f64 x.",FPX,ALLX,U+"gpd.rs, gev.rs: cdf")
p("C210","Floating-point densities are never NaN","In rounded IEEE arithmetic, pdf(x) of Exponential, Uniform, Laplace, Normal, LogNormal, FoldedNormal and GeneralisedPareto is a non-negative f64, never NaN, at every f64 x of the support, the infinities and the ends included.",FPX,ALLX,U+"exponential.rs, uniform.rs, laplace.rs, lognormal.rs, folded_normal.rs, gpd.rs: pdf; src/normal/univariate.rs: pdf")
p("C211","Floating-point densities at the ends of the support","In rounded IEEE arithmetic, pdf(x) of Cauchy, Logistic, Gumbel, Rayleigh, Frechet, Weibull, Gamma, ChiSq, Chi, Levy, InvGamma, FDist and InvNormal is a non-negative f64, never NaN, at every f64 x of the closed support, the infinities included.",FPX,ALLX,U+"cauchy.rs, logistic.rs, gumbel.rs, rayleigh.rs, frechet.rs, weibull.rs, gamma.rs, chi_sq.rs, chi.rs, levy.rs, inverse_gamma.rs, f_dist.rs, inverse_normal.rs: pdf")
SRCI="all parameters, every n, all random sources whose elementary draws have the documented laws and leave a state independent of the value drawn"
p("C212","Successive samples are independent","sample_n(n) (n successive calls of sample) returns n values that are independent and all have the law the distribution describes: Exponential, Cauchy, Weibull, Triangular, Uniform<f64>, Beta, ChiSq, FDist, Kumaraswamy, Laplace, Binomial, Bernoulli, Poisson, Degenerate.",SRCI,HIST,"src/lib.rs: sample, sample_n; "+U+"exponential.rs, cauchy.rs, weibull.rs, triangular.rs, uniform.rs, beta.rs, chi_sq.rs, f_dist.rs, kumaraswamy.rs, laplace.rs, binomial.rs, bernoulli.rs, poisson.rs, degenerate.rs: sample")
p("C213","Successive samples are independent: Pareto, Gamma, Fréchet, Student, geometric, discrete uniform","sample_n(n) returns n independent values of the law the distribution describes.",SRCI,HIST,"src/lib.rs: sample, sample_n; "+U+"pareto.rs, gamma.rs, frechet.rs, student_t.rs, geometric.rs, uniform.rs: sample")
SRCN="all parameters, every n, all sources of standard normal (uniform, Gamma) variates whose draws have that law and leave a state independent of the value drawn"
p("C214","Successive normal, folded normal and inverse normal samples","sample_n(n) returns n independent values of the normal, folded normal or inverse Gaussian law with the given parameters.",SRCN,HIST,"src/lib.rs: sample_n; src/normal/univariate.rs: sample; "+U+"folded_normal.rs, inverse_normal.rs: sample")
p("C215","Successive multivariate normal and log-normal samples","sample_n(n) returns n independent vectors of the Gaussian (log-Gaussian) law with the given mean and covariance: general, bivariate, paired, diagonal and isotropic.",SRCN+"; all dimensions",HIST,"src/lib.rs: sample_n; src/normal/multivariate.rs, src/normal/bivariate.rs, src/normal/paired.rs, src/multivariate/lognormal.rs: sample")
p("C216","Successive categorical and mixture samples","For weights that add up to 1, sample_n(n) of a Categorical returns n independent indices, each with its weight, and sample_n(n) of a Mixture n independent values of the mixture law sum of w_i nu_i.","all weights adding up to 1, all component samplers whose successive samples are independent, every n, all sources of uniform variates as above, both build profiles",HIST,"src/lib.rs: sample_n; src/probability.rs: sample_index; src/mixture.rs: sample; "+U+"categorical.rs: sample")
p("C217","Successive log-normal and Dirichlet samples","sample_n(n) returns n independent values of the log-normal (Dirichlet) law with the given parameters.",SRCN,HIST,"src/lib.rs: sample_n; "+U+"lognormal.rs: sample; src/multivariate/dirichlet.rs: sample")
p("C218","Checked constructors only check","For every distribution, new(args) succeeds exactly when the arguments meet the documented conditions, and then returns what new_unchecked(args) returns; every other argument list is refused with an error.","all distributions and all argument lists, NaN and infinities included",ALLX,"src/lib.rs: new_dist!; src/params/mod.rs: new, new_unchecked; "+U+"*.rs: new, new_unchecked")
p("C219","Standard distributions","Every Default value, and every standard() constructor, is the distribution the checked constructor returns for the standard parameters.","all distributions with a Default or standard()",ALLX,U+"*.rs: Default; src/normal/*.rs: standard")
p("C220","Reported support","support() is the support of the law: the law has no mass outside the returned set, and positive mass on every non-empty open part of it (for discrete laws: exactly its elements have positive mass).","all distributions and accepted parameters",ALLX,U+"*.rs: support; src/normal/*.rs: support; src/multivariate/*.rs: support")
p("C221","Reported counts","size_hint() of the sampling iterator is a valid bound, n_categories() is the number of indices on which pmf answers, n_components() the number of weights and components of a mixture.","all samplers, categorical distributions and mixtures",ALLX,"src/lib.rs: Sampler::size_hint; src/univariate/categorical.rs: n_categories; src/mixture.rs: n_components")
NANX="The claim ranges over every accepted parameter and the special values NaN and infinity of f64, under any rounding; tests sample ordinary values."
p("C222","cdf at NaN","For every distribution, cdf(x) is a valid probability for every f64 argument, NaN included, and pdf does not panic.","all univariate continuous distributions, all accepted parameters, any floating-point arithmetic (the laws computed with special functions: any that propagate NaN)",NANX,U+"*.rs: cdf, pdf; src/normal/univariate.rs: cdf; src/probability.rs: new_unchecked, is_valid")
p("C223","Constructors refuse NaN","No checked constructor accepts a NaN parameter; in particular every cdf value of a constructed distribution at a number is a valid probability.","all univariate distributions, all other parameters, every argument, any floating-point arithmetic",NANX,"src/params/mod.rs: locscale_params!, shape_params!; src/params/constraints.rs: check; "+U+"*.rs: new, cdf")
p("C224","Constructors refuse infinite parameters","No checked constructor accepts an infinite parameter, or the cdf of the constructed distribution is still a valid probability at every number.","univariate distributions with a scale, rate or location, all other parameters, any floating-point arithmetic",NANX,"src/params/mod.rs: locscale_params!, shape_params!; "+U+"*.rs: new, cdf; src/normal/univariate.rs: new, cdf")
SERX="The claim ranges over every value of every serialisable type, every order and selection of map entries, and every datum a format can deliver; tests cover a few."
SERA="src/params/mod.rs: param!, params!; src/probability.rs: Probability, SimplexVector; src/params/corr.rs, src/params/concentrations.rs, src/normal/mod.rs: Params, Covariance; src/utils.rs: serde_arrays; src/mixture.rs, src/multivariate/multinomial.rs: Params; "+U+"*.rs: Params"
p("C225","Serialised parameters survive","With the serde feature, deserialising what was serialised gives back the same parameters, and converting them gives back the distribution they were taken from; struct fields are found by name in any order, unknown entries are ignored, missing or repeated fields are refused, integers are kept in range.","all parameter types and all their values; any self-describing format that transports f64 and 64-bit integers unchanged",SERX,SERA)
p("C226","Deserialised values satisfy the checks of the constructors","With the serde feature, a probability, simplex vector or parameter set obtained by deserialisation is one its checked constructor accepts, and converting it to a distribution neither panics nor is undefined.","all parameter types, all data",SERX,SERA+"; src/lib.rs: new_dist!; src/mixture.rs: From<Params>")
PANX="The claim ranges over every distribution of every type, every argument and every accepted parameter; a test observes one panic at one parameter."
p("C227","Quantile methods answer","For every distribution that implements Quantiles, quantile(p), cquantile(p), the quartiles, iqr and the fences return a number.","all thirty implementations, all distributions, all p",PANX,"src/statistics.rs: Quantiles; "+U+"*.rs: quantile; src/normal/univariate.rs: quantile")
p("C228","Distribution functions answer","For every distribution, cdf(x), ccdf(x), log_cdf(x) and log_ccdf(x) return a value, the last three being the complement and the logarithms of cdf(x).","all distributions, all arguments",PANX,"src/lib.rs: cdf, ccdf, log_cdf, log_ccdf; "+U+"poisson.rs: cdf; src/multivariate/*.rs: cdf; src/normal/*.rs: cdf")
p("C229","Higher moments answer","skewness, kurtosis and excess_kurtosis return whenever these moments exist and refuse (documented) when they do not.","mixtures, folded normal, Kumaraswamy and point-mass distributions, all parameters",PANX,"src/mixture.rs: skewness, kurtosis; "+U+"folded_normal.rs, kumaraswamy.rs, degenerate.rs: skewness, kurtosis, excess_kurtosis")
p("C230","Parameters describe themselves","For every parameter type, constraints() lists tests that a value passes exactly when the checked constructor accepts it, and value() and into_value() give back the value that was passed.","all parameter types, all values",ALLX,"src/params/mod.rs: Param, impl_param!; src/params/corr.rs, src/params/concentrations.rs, src/probability.rs, src/normal/mod.rs: Param")
p("C231","Multivariate log-normal constructors","The checked constructors of the multivariate log-normal (dense, diagonal, isotropic, homogeneous, standard) accept exactly what those of the underlying normal accept, agree with the unchecked ones, and params() gives the arguments back, from which the same distribution is rebuilt.","all dimensions, all arguments, any floating-point arithmetic",ALLX,"src/multivariate/lognormal.rs: new, diagonal, isotropic, homogeneous, standard, params, From")
TXTX="The claim ranges over every pair of values of every type (and constraints nested to any depth); tests compare a few strings."
p("C232","Printed distributions are unambiguous","Two distributions that print the same text are of the same family and have the same parameters (for the families that print their parameters).","all pairs of distributions of thirty scalar families, of the categorical, Dirichlet, multinomial, isotropic log-normal, degenerate and paired normal families, all parameters and dimensions, any number printer that prints distinct f64 differently without punctuation",TXTX,U+"*.rs: Display; src/multivariate/*.rs, src/normal/univariate.rs, src/normal/paired.rs: Display; src/params/mod.rs: param! Display")
p("C233","Printed derived quantities identify the parameters","Where a distribution prints quantities computed from its parameters (uniform, arcsine, triangular, log-normal, folded normal, bivariate normal), the text still identifies the parameters.","all pairs of distributions of one family, binary64 arithmetic",TXTX,U+"uniform.rs, arcsine.rs, triangular.rs, lognormal.rs, folded_normal.rs: Display; src/normal/bivariate.rs: Display")
p("C234","Error messages are unambiguous","The printed text of a constraint, however nested, determines which values it accepts; the message of an unsatisfied-constraint error determines the offending value, the parameter name and the accepted values; the messages of the probability errors determine the rejected value or vector.","all constraints, values, parameter names; same assumptions on number printers",TXTX,"src/params/constraints.rs: Display of the constraints, UnsatisfiedConstraintError; src/probability.rs: InvalidProbabilityError, InvalidSimplexError")
FLTX="The claim ranges over every accepted parameter including the overflow and underflow ranges; tests sample ordinary values."
p("C235","Variances in floating point","In IEEE double arithmetic, with overflow and underflow, variance() of any distribution built from finite accepted parameters is a non-negative number or +inf, never NaN or negative.","all families with a variance, all finite parameters accepted by the constructor, subnormal and huge ones included",FLTX,U+"*.rs: variance; src/normal/univariate.rs: variance")
p("C236","Means, medians and modes in floating point","In IEEE double arithmetic, mean(), median() and modes() of any distribution built from finite accepted parameters lie in the closed range of the support (+inf allowed on overflow when the support is unbounded), and are never NaN.","all families with such a statistic, all finite parameters accepted by the constructor, subnormal and huge ones included",FLTX,U+"*.rs: mean, median, modes")
LNKX="The claim equates two independently coded classes on a continuum of parameters and arguments; a test compares them at a few points within a tolerance."
p("C237","Exponential laws agree across classes","Exponential(λ), Gamma(1, λ), Erlang(1, λ), Weibull(1/λ, 1) and, for λ = 1/2, ChiSq(2) are one law: the methods they share (cdf, pdf, mean, variance, skewness, kurtosis, entropy, modes) return the same numbers on (0, ∞).","all rates, all arguments > 0",LNKX,U+"exponential.rs, gamma.rs, erlang.rs, weibull.rs, chi_sq.rs: cdf, pdf, mean, variance, skewness, excess_kurtosis, shannon_entropy, modes")
p("C238","Rayleigh laws agree across classes","Rayleigh(σ) and Weibull(σ√2, 2), and Rayleigh(1) and Chi(2), are one law: the methods they share return the same numbers.","all σ, all arguments > 0",LNKX,U+"rayleigh.rs, weibull.rs, chi.rs: cdf, pdf, mean, variance, skewness, median, shannon_entropy")
p("C239","Laws on the unit interval agree across classes","Beta(α, β) and Kumaraswamy(α, β) when a shape is 1, Beta(1, 1) and Uniform(0, 1), Beta(1/2, 1/2) and Arcsine(0, 1) are one law: the methods they share return the same numbers.","all shapes concerned, all arguments of the unit interval",LNKX,U+"beta.rs, kumaraswamy.rs, uniform.rs, arcsine.rs: cdf, pdf, mean, variance, skewness, median, modes, shannon_entropy")
p("C240","Heavy-tailed laws agree across classes","Pareto(m, α) and GPD(m, m/α, 1/α), Frechet(α) and GEV(1, 1/α, 1/α), StudentT(1) and Cauchy(0, 1) are one law: the methods they share return the same numbers.","all m, α > 0 concerned, all arguments of the support",LNKX,U+"pareto.rs, generalised_pareto.rs, frechet.rs, gev.rs, students_t.rs, cauchy.rs: cdf, pdf, mean, variance, median, modes, shannon_entropy")
p("C241","Transformed variables","Distribution functions of classes related by a change of variable satisfy the relation: exp of a normal is log-normal, X/(1-X) of a Beta is Beta prime, F from Beta, 1/X of a Weibull is Fréchet, exp of a Gumbel is Fréchet, -ln of a Weibull is Gumbel, exp of an exponential is Pareto, |X| of a normal is folded normal, 1/X of a Gamma is inverse-Gamma, Levy(0, c) is InvGamma(1/2, c/2).","all parameters accepted by both classes, all arguments of the supports",LNKX,U+"lognormal.rs, beta_prime.rs, f.rs, frechet.rs, weibull.rs, gumbel.rs, pareto.rs, exponential.rs, folded_normal.rs, levy.rs, inverse_gamma.rs, gamma.rs: cdf, pdf, shannon_entropy; src/normal/univariate.rs: cdf")
p("C242","Discrete laws agree across classes","Binomial(1, p) and Bernoulli(p), BetaBinomial(n, 1, 1) and the discrete Uniform(0, n), Categorical[1-p, p] and Bernoulli(p) are one law, and a count of Multinomial(n, ps) is Binomial(n, ps[i]): the methods they share return the same numbers.","all n, all probabilities, all arguments",LNKX,U+"binomial.rs, bernoulli.rs, beta_binomial.rs, uniform.rs, categorical.rs: pmf, cdf, mean, variance, skewness, excess_kurtosis; src/multivariate/multinomial.rs: mean, variance")
p("C243","Normal laws agree across classes","The isotropic, diagonal, paired, bivariate, dense multivariate and univariate normal classes agree wherever their parameters describe the same law: density, distribution function, mean, modes, variance, covariance, entropy, and the sample for the same draws.","all dimensions, means, covariance matrices concerned, all points and draws",LNKX,"src/normal/univariate.rs, src/normal/bivariate.rs, src/normal/paired.rs, src/normal/multivariate.rs: pdf, mean, variance, covariance, shannon_entropy, sample")
p("C244","Mixtures depend only on the weighted components","Reordering the weighted components of a mixture, splitting a component into copies of total weight 1, or adding a component of weight 0 changes neither its cdf, pdf, mean nor variance.","all component families, weights and components, any number of components, all arguments",LIST,"src/mixture.rs: new, cdf, pdf, mean, variance")
p("C245","Assigned mixture fields take effect","After any sequence of assignments to the public fields weights and components of a mixture, every query answers as for a mixture built afresh from the present fields.","all component families, all built mixtures, all histories of assignments of any length, all arguments, generators and arithmetics",HIST,"src/mixture.rs: Mixture (pub weights, pub components, support), new_unchecked, cdf, pdf, mean, variance, sample, params, support")
p("C246","Assigned Dirichlet concentrations take effect","After any assignment to the public field alphas of a Dirichlet law, every query answers as for a law built afresh from the present concentrations.","all dimensions, all positive concentrations before and after, all points, all generators",HIST,"src/multivariate/dirichlet.rs: Dirichlet (pub alphas, alpha0, ln_beta_alphas, alphas_normed), mean, variance, pdf, sample, params")
p("C247","Comparing probabilities","Valid probabilities are totally ordered by the numbers they hold, equality (also with an f64) is equality of those numbers, zero and one are the extremes; checked and unchecked arithmetic respects the order after rounding; a NaN inside is comparable with nothing.","all probabilities, all f64 values, every correctly rounded arithmetic",FLTX,"src/probability.rs: derive(PartialEq, PartialOrd, Default), PartialEq<f64>, Add, Sub, Mul, Div, zero, one")
p("C248","Mixtures in floating point","In rounded IEEE arithmetic, for every mixture accepted by Mixture::new: cdf is non-negative and non-decreasing where the component cdfs are valid and non-decreasing, pdf is non-negative and never NaN where the component densities are non-negative, mean is never NaN and lies between the component means, variance is non-negative and never NaN.","all component families, weights and components, any number of components, all f64 arguments, every correctly rounded arithmetic (binary64 in particular)",FLTX,"src/mixture.rs: new, cdf, pdf, mean, variance; src/statistics.rs: standard_deviation")
p("C249","Masses are probabilities in floating point","In rounded IEEE arithmetic the mass every discrete law returns for an outcome of its support is a number between 0 and 1 (never NaN, infinite or negative).","all parameters accepted by the constructors, all outcomes, every correctly rounded arithmetic (binary64 for the violations and the Poisson law)",FLTX,U+"bernoulli.rs, binomial.rs, categorical.rs, geometric.rs, uniform.rs, poisson.rs: pmf; src/utils.rs: choose, log_factorial_stirling; src/probability.rs: powi")
p("C250","Accuracy of floating-point masses","In rounded IEEE arithmetic the masses and distribution functions of the discrete laws are those of the law up to an explicit rounding error.","all parameters accepted by the constructors, all outcomes, every correctly rounded arithmetic (binary64 for the Poisson law and monotonicity)",FLTX,U+"binomial.rs, geometric.rs, uniform.rs, poisson.rs: pmf, cdf; src/utils.rs: choose, log_factorial_stirling; src/probability.rs: powi")
p("C251","Accuracy of floating-point distribution functions","In rounded IEEE arithmetic with accurate elementary functions, the value returned by a continuous law's cdf differs from the real distribution function by at most 2^-47 (for Pareto, Weibull and the log-normal by an explicit multiple of 2^-51 that grows with the shape, respectively with 1/sigma).","all parameters accepted by the constructors, all finite f64 arguments of the support, every correctly rounded arithmetic satisfying the accuracy contract (binary64 for the violations)",FLTX,U+"exponential.rs, logistic.rs, gumbel.rs, cauchy.rs, frechet.rs, pareto.rs, weibull.rs, lognormal.rs: cdf; src/normal/univariate.rs: cdf, z")
p("C252","Samples stay in the support in floating point","When the random source answers inside the interval it was asked for, every sample computed by the library itself is, in rounded IEEE arithmetic, a number in the support of the distribution.","all parameters accepted by the constructors (magnitude up to 2^1000 for the normal families), all answers of the source, every correctly rounded arithmetic (binary64 for two of the violations)",FLTX,U+"kumaraswamy.rs, frechet.rs, laplace.rs, uniform.rs, folded_normal.rs, lognormal.rs, inverse_normal.rs: sample, support; src/normal/univariate.rs: sample")
p("C253","Accuracy of floating-point densities","In rounded IEEE arithmetic with accurate elementary functions, the value returned by a continuous law's pdf differs from the real density by at most a fixed multiple (2^-50 to 2^-43) of the reciprocal scale, i.e. of the size of the density's peak.","all parameters accepted by the constructors whose scale lies between 2^-500 and 2^500, all finite f64 arguments, every correctly rounded arithmetic satisfying the accuracy contract (binary64 for the violations)",FLTX,U+"exponential.rs, cauchy.rs, gumbel.rs, logistic.rs, uniform.rs, folded_normal.rs: pdf; src/normal/univariate.rs: pdf, z")
p("C254","Accuracy of floating-point moments","In rounded IEEE arithmetic the mean, variance, skewness and (excess) kurtosis returned by a distribution have relative error at most 2^-46 (64 units in the last place).","all parameters accepted by the constructors between 2^-60 and 2^60 (and as far from the thresholds below which the moment does not exist; all integer parameters), every correctly rounded arithmetic (binary64 for the violations)",FLTX,U+"exponential.rs, gamma.rs, erlang.rs, chi_sq.rs, inverse_gamma.rs, pareto.rs, logistic.rs, gumbel.rs, laplace.rs, uniform.rs, arcsine.rs, cosine.rs, rayleigh.rs, inverse_normal.rs, beta.rs, beta_prime.rs, f_dist.rs, student_t.rs, geometric.rs, binomial.rs, bernoulli.rs, beta_binomial.rs, triangular.rs: mean, variance, skewness, kurtosis, excess_kurtosis")
p("C255","Accuracy of floating-point medians and modes","In rounded IEEE arithmetic with accurate elementary functions, the median, mode and quantile returned by a distribution are within relative error 2^-40 (on the scale |location| + spread for the families with a location; 2^-34 for Kumaraswamy) of the point where the real distribution function takes the value 1/2, respectively of the maximum of the real density.","all parameters accepted by the constructors of ordinary size (2^-60 to 2^60, shape exponents between 1/16 and 16), every correctly rounded arithmetic satisfying the accuracy contract (binary64 for the violations)",FLTX,U+"exponential.rs, rayleigh.rs, pareto.rs, weibull.rs, frechet.rs, gumbel.rs, uniform.rs, lognormal.rs, generalised_pareto.rs, gev.rs, kumaraswamy.rs: median; gamma.rs, inverse_gamma.rs, beta.rs, beta_prime.rs, chi.rs, chi_sq.rs, erlang.rs, f_dist.rs, inverse_normal.rs: modes; src/statistics.rs: standard_deviation")
p("C256","Accuracy of floating-point entropies","In rounded IEEE arithmetic with accurate elementary functions, the Shannon entropy returned by a continuous law is a finite number within 2^-40 (2^-38 for the generalised extreme value law) of the differential entropy of the law.","all parameters accepted by the constructors of ordinary size (2^-60 to 2^60; shapes bounded as stated), every correctly rounded arithmetic satisfying the accuracy contract (binary64 for the violation)",FLTX,U+"exponential.rs, logistic.rs, laplace.rs, cauchy.rs, uniform.rs, gpd.rs, gev.rs, pareto.rs, gumbel.rs, rayleigh.rs, levy.rs, weibull.rs, frechet.rs: shannon_entropy; src/normal/univariate.rs: shannon_entropy")
p("C257","Quantile functions in floating point","In rounded IEEE arithmetic a larger probability never gives a smaller quantile, no quantile is NaN, every quantile lies in the support of the law, the quantile of one half is the median, and the quartiles, median and fences derived from it are in order.","every pair of valid probabilities (for the normal law strictly between 0 and 1), every parameter accepted by the constructors of the uniform, discrete uniform, exponential, Cauchy and normal laws; every lawful rounding, tan and norm_inv monotone",FLTX,U+"uniform.rs: quantile, median; "+U+"cauchy.rs: quantile; "+U+"exponential.rs: quantile; src/normal/univariate.rs: quantile; src/statistics.rs: Quantiles")
p("C258","Maximum-likelihood fits in floating point","In rounded IEEE arithmetic the maximum-likelihood fit of a sample succeeds exactly when the sample determines a law, and its parameters are the fraction of successes (Bernoulli), the sample mean (Poisson), and the empirical mean and variance (normal), up to the rounding of the sums.","all samples of up to 2^50 (2^53 for the discrete laws) observations of any size, every correctly rounded arithmetic (binary64 for the violations)",FLTX,U+"bernoulli.rs: fit_mle; "+U+"poisson.rs: fit_mle; src/normal/univariate.rs: fit_mle")
p("C259","Floating-point densities are never negative","In rounded IEEE arithmetic pdf(x) is never a negative number (nor minus infinity) at any f64 x of the support, signed zeros and infinities included: it may be NaN or overflow to +inf, but not negative.","all parameters accepted by the constructors of Cauchy, Logistic, Gumbel, Cosine, Rayleigh, Chi, ChiSq, Levy, FDist, InvNormal, Frechet, Gamma, Weibull, Beta, Kumaraswamy, BetaPrime, InvGamma, Pareto, StudentT, Erlang, GeneralisedExtremeValue, Triangular and Arcsine; all f64 arguments; every lawful rounding with special functions that are non-negative on non-negative arguments",FLTX,U+"cauchy.rs, logistic.rs, gumbel.rs, cosine.rs, rayleigh.rs, chi.rs, chi_sq.rs, levy.rs, f_dist.rs, inverse_normal.rs, frechet.rs, gamma.rs, weibull.rs, beta.rs, kumaraswamy.rs, beta_prime.rs, inverse_gamma.rs, pareto.rs, student_t.rs, erlang.rs, gev.rs, triangular.rs, arcsine.rs: pdf")
p("C260","Accuracy of multivariate moments in floating point","In rounded IEEE arithmetic mean, variance, covariance and correlation of the Dirichlet, multinomial and bivariate normal laws are within a small relative error of the moments of the law (for the Dirichlet law the error grows linearly with the dimension).","all concentrations, weights and variances between 2^-60 and 2^60, all trial counts below 2^64, every dimension up to 100000, every pair of components",FPX,"src/multivariate/dirichlet.rs: mean, variance, covariance; src/multivariate/multinomial.rs: mean, variance, covariance, correlation; src/normal/bivariate.rs: covariance, correlation")
p("C261","Accuracy of the Fisher information in floating point","In rounded IEEE arithmetic fisher_information is within relative error 2^-46 of the Fisher information of the family, with exact zeros off the diagonal where the parameters are orthogonal.","all parameters between 2^-60 and 2^60 (and 1 - p likewise) of the normal, Bernoulli, binomial, Pareto, exponential and Poisson laws",FPX,U+"bernoulli.rs, binomial.rs, pareto.rs, exponential.rs, poisson.rs; src/normal/univariate.rs: fisher_information")
p("C262","Discrete distribution functions in floating point","In rounded IEEE arithmetic the distribution functions of the categorical, geometric and binomial laws return probabilities, the categorical one is non-decreasing and ends at 1 up to the tolerance of the check, and those of the geometric and binomial laws respond monotonically to the success probability.","all accepted weight vectors (up to 2^53 entries) and success probabilities, all arguments of the support, every correctly rounded arithmetic",FPX,U+"categorical.rs, geometric.rs, binomial.rs: cdf")
p("C263","Convolutions in floating point","In rounded IEEE arithmetic the convolution of any number of laws, formed one at a time or by convolve_many, has the summed parameters up to n units in the last place whatever the order and grouping, and is a law its constructor accepts.","all accepted normal, Cauchy, Poisson and Gamma laws, lists of any length up to 2^50, every correctly rounded arithmetic",FPX,"src/lib.rs: Convolution::convolve, convolve_many; src/normal/univariate.rs, "+U+"cauchy.rs, poisson.rs, gamma.rs: convolve")
p("C264","Functions of a probability","ln, log2, powf and powi of a valid probability are the logarithms and powers of its value (minus infinity for the logarithm of 0); in rounded arithmetic the logarithm is never NaN or positive, non-negative powers are probabilities, all three grow with the probability, and a list of probabilities sums to the sum of the values.","all valid probabilities, all exponents, all lists of probabilities, exact arithmetic and every correctly rounded arithmetic",FPX,"src/probability.rs: Probability::ln, log2, powf, powi, Sum<Probability>")
p("C265","Log-likelihoods in floating point","In rounded IEEE arithmetic the Bernoulli log-likelihood of any data is never NaN or positive and, like the Poisson one, lies within a small multiple of the number of observations of the true log-likelihood.","all accepted success probabilities and rates, data of any length up to 2^50 (Poisson 2^20)",FPX,U+"bernoulli.rs, poisson.rs: log_likelihood; src/fitting.rs: Likelihood::likelihood")
p("C266","Accuracy of floating-point distribution functions, continued","In rounded IEEE arithmetic with accurate elementary functions, the value returned by the cdf of the Kumaraswamy, uniform, generalised Pareto and generalised extreme value laws differs from the real distribution function by at most an explicit bound: (b + 1) 2^-49, 2^-49 + |l|/w 2^-52, (1 + 1/zeta) 2^-47 and (1 + 1/(zeta delta)) 2^-46 respectively.","all parameters accepted by the constructors in the stated ranges (second Kumaraswamy shape at least 1, with a weaker bound below; shapes from 2^-40 to 2^60), every f64 argument of the stated set, every correctly rounded arithmetic and accurate library functions",FPX,U+"kumaraswamy.rs, uniform.rs, gpd.rs, gev.rs: cdf; src/params")
p("C267","Accuracy of the triangular distribution function in floating point","In rounded IEEE arithmetic the value returned by the triangular cdf differs from the real distribution function of the law with lower corner m and legs u, v by at most 2^-48 + |m|/(u + v) 2^-50.","all accepted parameters with legs from 2^-150 to 2^150 not absorbed by the corners (|m| + u at most 2^50 v, |m| at most 2^50 u), every f64 argument, every correctly rounded arithmetic",FPX,U+"triangular.rs: cdf, Params::b, Params::c")
p("C268","The logarithms of the Erlang law","log_pdf and log_cdf are the logarithms of the density and the distribution function of the Erlang law; pdf and cdf are their exponentials, at every f64 and panicking exactly when they do.","all accepted shapes and rates, all f64 arguments, both build profiles",ALLX,U+"erlang.rs: log_pdf, log_cdf; src/lib.rs: Distribution::cdf, ContinuousDistribution::pdf")
p("C269","Relative accuracy of floating-point densities","In rounded IEEE arithmetic with accurate elementary functions, the value returned by the pdf of the Pareto, Rayleigh, Weibull, Frechet, Kumaraswamy, Levy, inverse normal and generalised Pareto laws is within a relative 2^-35 or better (2^-43 for the Pareto law) of the real density, however small the density is, as long as the powers and exponentials it multiplies stay within the stated range.","all accepted parameters and all arguments of ordinary size (2^-60 to 2^60) for which the logarithm of each factor of the density is at most 64 (Pareto 128), with the shapes bounded as stated in each theorem; every correctly rounded arithmetic and accurate library functions",FPX,U+"pareto.rs, rayleigh.rs, weibull.rs, frechet.rs, kumaraswamy.rs, levy.rs, inverse_normal.rs, gpd.rs: pdf")
p("C270","Accuracy of the raised cosine and arcsine distribution functions in floating point","In rounded IEEE arithmetic with accurate trigonometric functions the value returned by the raised cosine cdf is within 2^-48, and the one returned by the arcsine cdf within 2^-47, of the real distribution function.","all accepted parameters and all f64 arguments, in every correctly rounded arithmetic with accurate sin and asin (instances: exact arithmetic and binary64)",FPX,U+"cosine.rs: cdf, z; "+U+"arcsine.rs: cdf")
p("C271","Accuracy of mixtures in floating point","In rounded IEEE arithmetic the cdf, pdf and mean of a mixture are the weighted sums of the real values of its components up to 11/10 of the error of the worst component plus (n + 1) 2^-50 of the largest value, and its variance is within a small relative error of the variance of the mixture.","all accepted mixtures of at most 2^30 components of any kind, all weights, all arguments, every correctly rounded arithmetic",FPX,"src/mixture.rs: Mixture::new, cdf, pdf, mean, variance")
p("C272","The provided methods in floating point","In rounded IEEE arithmetic an implementor who computes one method of a pair accurately gets the other one accurate from the trait: the standard deviation is the root of the variance (and the variance its square), the excess kurtosis is three less than the kurtosis, the ccdf is the complement of the cdf, the logarithms turn relative into absolute errors and the exponentials absolute into relative ones, the distance is the root of the squared distance, and the fences follow the quartiles, each up to a few units in the last place.","all implementations of the traits, all errors of the implemented method below the stated thresholds, all values in the stated ranges, every correctly rounded arithmetic with accurate elementary functions",FPX,"src/statistics.rs: variance, standard_deviation, kurtosis, excess_kurtosis, iqr, lower_fence, upper_fence; src/lib.rs: cdf, ccdf, log_cdf, pmf, log_pmf, pdf, log_pdf; src/fitting.rs: likelihood, log_likelihood; src/distance.rs: d_mahalanobis")
p("C273","Tail probabilities keep their relative accuracy","In rounded IEEE arithmetic ccdf(x) is within a small relative error of the probability of exceeding x, and log_ccdf(x) within a small absolute error of its logarithm, as long as that probability is an ordinary number.","all distributions with an accurate cdf (no distribution of the crate overrides ccdf), all arguments; every correctly rounded arithmetic (binary64 for the violations)",FPX,"src/lib.rs: Distribution::ccdf, log_ccdf; "+U+"exponential.rs, logistic.rs: cdf")
p("C274","Small probabilities keep their relative accuracy","In rounded IEEE arithmetic cdf(x) is within a small relative error of the probability of not exceeding x even where that probability is small: it never collapses to zero while the probability is an ordinary number.","all accepted parameters of ordinary size and all arguments in the stated ranges (logistic, Gumbel, Frechet and uniform laws: proved; exponential, Weibull, generalised Pareto and Kumaraswamy laws: refuted; any accurate cdf down to probabilities of 2^-k); every correctly rounded arithmetic (binary64 for the violations)",FPX,U+"logistic.rs, gumbel.rs, frechet.rs, uniform.rs, exponential.rs, weibull.rs, gpd.rs, kumaraswamy.rs: cdf")
p("C275","Log-densities in floating point","In rounded IEEE arithmetic log_pdf(x) is within a small absolute error of the logarithm of the density, also far out where the density itself is tiny.","all laws with an accurate density where the density is between 2^-k and 2^k; the normal law for all parameters of ordinary size; refuted in binary64 for every exponential and every normal law of ordinary size beyond the point where the density underflows",FPX,"src/lib.rs: ContinuousDistribution::log_pdf; "+U+"exponential.rs: pdf; src/normal/univariate.rs: pdf")
p("C276","Accuracy of multivariate log-normal moments in floating point","In rounded IEEE arithmetic the mean and the variance of each coordinate of a multivariate log-normal law with diagonal covariance are within a small relative error of the moments of the law.","all dimensions, all locations of the logarithm up to 16 in size and all its variances up to 32 (for the variance at least 1/16: refuted in binary64 for every variance up to 2^-56); every correctly rounded arithmetic with accurate elementary functions",FPX,"src/multivariate/lognormal.rs: mean, variance, LogNormal::diagonal")
p("C277","Accuracy of bivariate normal densities in floating point","In rounded IEEE arithmetic the density of a paired (independent) or bivariate normal law is within a small relative error of the two-dimensional Gaussian density with the covariance matrix the value describes.","all ordinary variances, all correlations (proved up to 255/256 in size, losing accuracy in proportion to 1/(1-|rho|); refuted in binary64 at 1 - 2^-53), all arguments at ordinary distances from the means with exponent up to 64; every correctly rounded arithmetic with accurate elementary functions",FPX,"src/normal/bivariate.rs: z, pdf; src/normal/paired.rs: z, pdf")
