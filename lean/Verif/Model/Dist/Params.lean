import Verif.Model.Multi
import Verif.Model.Dist.Arcsine
import Verif.Model.Dist.Cauchy
import Verif.Model.Dist.Cosine
import Verif.Model.Dist.Exponential
import Verif.Model.Dist.Frechet
import Verif.Model.Dist.GEV
import Verif.Model.Dist.GPD
import Verif.Model.Dist.Gumbel
import Verif.Model.Dist.Kumaraswamy
import Verif.Model.Dist.Laplace
import Verif.Model.Dist.Logistic
import Verif.Model.Dist.Pareto
import Verif.Model.Dist.Rayleigh
import Verif.Model.Dist.Triangular
import Verif.Model.Dist.Weibull
import Verif.Model.Dist.Poisson
import Verif.Model.Dist.Uniform
import Verif.Model.Dist.Degenerate
import Verif.Model.Dist.Binomial
import Verif.Model.Dist.Geometric
import Verif.Model.Dist.Categorical
import Verif.Model.Dist.GammaFamily
import Verif.Model.Dist.BetaFamily
import Verif.Model.Dist.NormalFamily
import Verif.Model.MvNormal

/-! `Distribution::params` and `From<Params>` of the distributions. A `Params` record is represented by the tuple of its fields. -/
namespace Rstat
/-- src/univariate/arcsine.rs:53 `params` -/
def Arcsine.params (d : Arcsine) : F64 × F64 := (d.a, d.w)
/-- `From<Params>`: src/univariate/arcsine.rs:23 with src/lib.rs:169-179 `new_dist!` -/
def Arcsine.ofParams (p : F64 × F64) : Arcsine := ⟨p.1, p.2⟩
/-- src/univariate/cauchy.rs:60 `params` -/
def Cauchy.params (d : Cauchy) : F64 × F64 := (d.x0, d.gamma)
/-- `From<Params>`: src/univariate/cauchy.rs:22 with src/lib.rs:169-179 `new_dist!` -/
def Cauchy.ofParams (p : F64 × F64) : Cauchy := ⟨p.1, p.2⟩
/-- src/univariate/cosine.rs:57 `params` -/
def Cosine.params (d : Cosine) : F64 × F64 := (d.mu, d.s)
/-- `From<Params>`: src/univariate/cosine.rs:21 with src/lib.rs:169-179 `new_dist!` -/
def Cosine.ofParams (p : F64 × F64) : Cosine := ⟨p.1, p.2⟩
/-- src/univariate/exponential.rs:47 `params` -/
def Exponential.params (d : Exponential) : F64 := d.lambda
/-- `From<Params>`: src/univariate/exponential.rs:21 with src/lib.rs:169-179 `new_dist!` -/
def Exponential.ofParams (p : F64) : Exponential := ⟨p⟩
/-- src/univariate/frechet.rs:45 `params` -/
def Frechet.params (d : Frechet) : F64 := d.alpha
/-- `From<Params>`: src/univariate/frechet.rs:21 with src/lib.rs:169-179 `new_dist!` -/
def Frechet.ofParams (p : F64) : Frechet := ⟨p⟩
/-- src/univariate/gev.rs:66 `params` -/
def GeneralisedExtremeValue.params (d : GeneralisedExtremeValue) : F64 × F64 × F64 := (d.mu, d.sigma, d.zeta)
/-- `From<Params>`: src/univariate/gev.rs:25 with src/lib.rs:169-179 `new_dist!` -/
def GeneralisedExtremeValue.ofParams (p : F64 × F64 × F64) : GeneralisedExtremeValue := ⟨p.1, p.2.1, p.2.2⟩
/-- src/univariate/gpd.rs:48 `params` -/
def GeneralisedPareto.params (d : GeneralisedPareto) : F64 × F64 × F64 := (d.mu, d.sigma, d.zeta)
/-- `From<Params>`: src/univariate/gpd.rs:24 with src/lib.rs:169-179 `new_dist!` -/
def GeneralisedPareto.ofParams (p : F64 × F64 × F64) : GeneralisedPareto := ⟨p.1, p.2.1, p.2.2⟩
/-- src/univariate/gumbel.rs:54 `params` -/
def Gumbel.params (d : Gumbel) : F64 × F64 := (d.mu, d.beta)
/-- `From<Params>`: src/univariate/gumbel.rs:21 with src/lib.rs:169-179 `new_dist!` -/
def Gumbel.ofParams (p : F64 × F64) : Gumbel := ⟨p.1, p.2⟩
/-- src/univariate/kumaraswamy.rs:48 `params` -/
def Kumaraswamy.params (d : Kumaraswamy) : F64 × F64 := (d.a, d.b)
/-- `From<Params>`: src/univariate/kumaraswamy.rs:20 with src/lib.rs:169-179 `new_dist!` -/
def Kumaraswamy.ofParams (p : F64 × F64) : Kumaraswamy := ⟨p.1, p.2⟩
/-- src/univariate/laplace.rs:43 `params` -/
def Laplace.params (d : Laplace) : F64 × F64 := (d.mu, d.b)
/-- `From<Params>`: src/univariate/laplace.rs:21 with src/lib.rs:169-179 `new_dist!` -/
def Laplace.ofParams (p : F64 × F64) : Laplace := ⟨p.1, p.2⟩
/-- src/univariate/logistic.rs:50 `params` -/
def Logistic.params (d : Logistic) : F64 × F64 := (d.mu, d.s)
/-- `From<Params>`: src/univariate/logistic.rs:21 with src/lib.rs:169-179 `new_dist!` -/
def Logistic.ofParams (p : F64 × F64) : Logistic := ⟨p.1, p.2⟩
/-- src/univariate/pareto.rs:44 `params` -/
def Pareto.params (d : Pareto) : F64 × F64 := (d.xm, d.alpha)
/-- `From<Params>`: src/univariate/pareto.rs:20 with src/lib.rs:169-179 `new_dist!` -/
def Pareto.ofParams (p : F64 × F64) : Pareto := ⟨p.1, p.2⟩
/-- src/univariate/rayleigh.rs:50 `params` -/
def Rayleigh.params (d : Rayleigh) : F64 := d.sigma
/-- `From<Params>`: src/univariate/rayleigh.rs:30 with src/lib.rs:169-179 `new_dist!` -/
def Rayleigh.ofParams (p : F64) : Rayleigh := ⟨p⟩
/-- src/univariate/triangular.rs:64 `params` -/
def Triangular.params (d : Triangular) : F64 × F64 × F64 := (d.a, d.a2c, d.c2b)
/-- `From<Params>`: src/univariate/triangular.rs:38 with src/lib.rs:169-179 `new_dist!` -/
def Triangular.ofParams (p : F64 × F64 × F64) : Triangular := ⟨p.1, p.2.1, p.2.2⟩
/-- src/univariate/weibull.rs:45 `params` -/
def Weibull.params (d : Weibull) : F64 × F64 := (d.lambda, d.k)
/-- `From<Params>`: src/univariate/weibull.rs:23 with src/lib.rs:169-179 `new_dist!` -/
def Weibull.ofParams (p : F64 × F64) : Weibull := ⟨p.1, p.2⟩
/-- `From<Params>`: src/univariate/poisson.rs:29 with src/lib.rs:169-179 `new_dist!` -/
def Poisson.ofParams (p : F64) : Poisson := ⟨p⟩
/-- `From<Params>`: src/univariate/gamma.rs:29 with src/lib.rs:169-179 `new_dist!` -/
def Gamma.ofParams (p : F64 × F64) : Gamma := ⟨p.1, p.2⟩
/-- `From<Params>`: src/univariate/inverse_gamma.rs:20 with src/lib.rs:169-179 `new_dist!` -/
def InvGamma.ofParams (p : F64 × F64) : InvGamma := ⟨p.1, p.2⟩
/-- `From<Params>`: src/univariate/beta.rs:25 with src/lib.rs:169-179 `new_dist!` -/
def BetaDist.ofParams (p : F64 × F64) : BetaDist := ⟨p.1, p.2⟩
/-- `From<Params>`: src/univariate/beta_prime.rs:20 with src/lib.rs:169-179 `new_dist!` -/
def BetaPrime.ofParams (p : F64 × F64) : BetaPrime := ⟨p.1, p.2⟩
/-- `From<Params>`: src/univariate/student_t.rs:22 with src/lib.rs:169-179 `new_dist!` -/
def StudentT.ofParams (p : F64) : StudentT := ⟨p⟩
/-- `From<Params>`: src/univariate/levy.rs:21 with src/lib.rs:169-179 `new_dist!` -/
def Levy.ofParams (p : F64 × F64) : Levy := ⟨p.1, p.2⟩
/-- `From<Params>`: src/univariate/folded_normal.rs:21 with src/lib.rs:169-179 `new_dist!` -/
def FoldedNormal.ofParams (p : F64 × F64) : FoldedNormal := ⟨p.1, p.2⟩
/-- `From<Params>`: src/univariate/chi_sq.rs:23 with src/lib.rs:169-179 `new_dist!` -/
def ChiSq.ofParams (p : ℕ) : ChiSq := ⟨p⟩
/-- `From<Params>`: src/univariate/chi.rs:23 with src/lib.rs:169-179 `new_dist!` -/
def Chi.ofParams (p : ℕ) : Chi := ⟨p⟩
/-- `From<Params>`: src/univariate/erlang.rs:22 with src/lib.rs:169-179 `new_dist!` -/
def Erlang.ofParams (p : ℕ × F64) : Erlang := ⟨p.1, p.2⟩
/-- `From<Params>`: src/univariate/f_dist.rs:22 with src/lib.rs:169-179 `new_dist!` -/
def FDist.ofParams (p : ℕ × ℕ) : FDist := ⟨p.1, p.2⟩
/-- `From<Loc<f64>>`, src/univariate/degenerate.rs:29-33 -/
def DegenerateF.ofParams (p : F64) : DegenerateF := ⟨p⟩
/-- src/univariate/degenerate.rs:111 `params` -/
def DegenerateI.params (d : DegenerateI) : ℤ := d.k
/-- `From<Loc<i64>>`, src/univariate/degenerate.rs:29-33 -/
def DegenerateI.ofParams (p : ℤ) : DegenerateI := ⟨p⟩
/-- `From<Params<i64>>`, src/univariate/uniform.rs:205-212 -/
noncomputable def UniformI.ofParams [FP] (pr : Profile) (p : ℤ × ℤ) : Except Panic UniformI := do
  let w1 ← i64chk pr (p.2 + 1)
  .ok ⟨p.1, p.2, 1 / F64.ofInt w1⟩
/-- `From<Params<N>>`, src/univariate/categorical.rs:45-47 -/
def Categorical.ofParams (p : SimplexVector) : Categorical := ⟨p⟩
/-- `From<UvNormalParams>`: src/normal/univariate.rs:49 with src/lib.rs:169-179 `new_dist!` -/
def UvNormal.ofParams (p : UvNormalParams) : UvNormal := p
/-- `From<Params>`, src/univariate/lognormal.rs:35-37 -/
def LogNormal.ofParams (p : UvNormalParams) : LogNormal := ⟨UvNormal.ofParams p⟩
end Rstat
