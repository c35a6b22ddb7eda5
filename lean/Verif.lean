import Verif.Float.Binary64
import Verif.Props.Probability
import Verif.Props.Params
import Verif.Props.Traits
import Verif.Props.Utils
import Verif.Props.Mixture
import Verif.Props.Normal
import Verif.Props.Normal2
import Verif.Props.MvNormal
import Verif.Props.Mahalanobis
import Verif.Props.Dist.Uniform
import Verif.Props.Dist.Degenerate
import Verif.Props.Dist.Arcsine
import Verif.Props.Dist.Cauchy
import Verif.Props.Dist.Exponential
import Verif.Props.Dist.Laplace
import Verif.Props.Dist.Logistic
import Verif.Props.Dist.Gumbel
import Verif.Props.Dist.Weibull
import Verif.Props.Dist.Frechet
import Verif.Props.Dist.Rayleigh
import Verif.Props.Dist.Pareto
import Verif.Props.Dist.GEV
import Verif.Props.Dist.Kumaraswamy
import Verif.Props.Dist.Cosine
import Verif.Props.Dist.Triangular
import Verif.Props.Dist.Bernoulli
import Verif.Props.Dist.Binomial
import Verif.Props.Dist.Geometric
import Verif.Props.Dist.Poisson
import Verif.Props.Dist.Categorical
import Verif.Props.Dist.Gamma
import Verif.Props.Dist.Chi
import Verif.Props.Dist.Universal
import Verif.Props.Dist.Erlang
import Verif.Props.Dist.Beta
import Verif.Props.Dist.BetaPrime
import Verif.Props.Dist.FDist
import Verif.Props.Dist.StudentT
import Verif.Props.Dist.BetaBinomial
import Verif.Props.Dist.Levy
import Verif.Props.Dist.LogNormal
import Verif.Props.Dist.FoldedNormal
import Verif.Props.Dist.InvNormal
import Verif.Props.Multinomial
import Verif.Props.Dirichlet
import Verif.Props.MvLogNormal
import Verif.Props.RoundTrip
import Verif.Props.Samplers
import Verif.Float.Libm
import Verif.Lemmas.FloatMono
import Verif.Lemmas.FloatSign
import Verif.Lemmas.Binary64
import Verif.Lemmas.B64Eval
import Verif.Spec.FloatCDF
import Verif.Props.FloatCdf
import Verif.Props.FloatCdf2
import Verif.Props.FloatCdf3
import Verif.Props.FloatCdf4
import Verif.Props.FloatCdf5
import Verif.Props.FloatCdf6
import Verif.Props.FloatCdf7
import Verif.Props.FloatPdf
import Verif.Props.FloatPdf2
import Verif.Props.FloatStats
import Verif.Props.FloatStats2
import Verif.Props.FloatMean
import Verif.Spec.Repeat
import Verif.Lemmas.Repeat
import Verif.Props.Repeat
import Verif.Lemmas.Repeat2
import Verif.Props.Repeat2
import Verif.Model.Dist.Unchecked
import Verif.Props.Constructors
import Verif.Spec.Support
import Verif.Model.Dist.Support
import Verif.Props.Support
import Verif.Props.Shape
import Verif.Props.Repeat3
import Verif.Props.NotANumber
import Verif.Model.Serde
import Verif.Model.Dist.Serde
import Verif.Lemmas.Serde
import Verif.Props.Serde
import Verif.Props.SerdeTypes
import Verif.Props.SerdeTypes2
import Verif.Model.Dist.Stubs
import Verif.Model.MvLogNormal
import Verif.Model.ParamTrait
import Verif.Props.ParamTrait
import Verif.Props.Surface
import Verif.Model.Display
import Verif.Spec.Display
import Verif.Lemmas.Display
import Verif.Props.Display
import Verif.Spec.Links
import Verif.Props.Links
import Verif.Props.Links2
import Verif.Props.Links3
import Verif.Props.Links4
import Verif.Props.Links5
import Verif.Props.MixtureLaws
import Verif.Props.Fields
import Verif.Props.ProbOrd
import Verif.Props.MixtureFloat
import Verif.Props.FloatPmf
import Verif.Props.FloatPmf2
import Verif.Props.FloatPmf3
import Verif.Props.FloatPmf4
import Verif.Props.FloatAccuracy
import Verif.Props.FloatAccuracy2
import Verif.Props.FloatAccuracy3
import Verif.Props.FloatSample2
import Verif.Props.FloatDensity
import Verif.Props.FloatDensity2
import Verif.Props.FloatMoments
import Verif.Props.FloatMoments2
import Verif.Props.FloatModes
import Verif.Props.FloatEntropy
import Verif.Props.FloatQuantile
import Verif.Props.FloatFit
import Verif.Props.FloatPdf3
import Verif.Props.FloatMulti
import Verif.Props.Release
import Verif.Props.FloatDiscrete
import Verif.Props.FloatConv
import Verif.Props.ProbFns
import Verif.Props.FloatLik
import Verif.Props.FloatAccuracy4
import Verif.Props.FloatAccuracy5
import Verif.Props.FloatAccuracy6
import Verif.Props.FloatAccuracy7
import Verif.Props.ErlangLogs
import Verif.Props.FloatDensity3
import Verif.Props.FloatAccuracy8
import Verif.Props.MixtureAccuracy
import Verif.Props.FloatDerived
import Verif.Props.FloatTail
import Verif.Props.FloatLogs
import Verif.Props.FloatLogNormal
import Verif.Props.FloatBv
import Verif.Conformance
