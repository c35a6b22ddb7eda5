import Verif.Model.Multi
import Verif.Model.Dist.Arcsine
import Verif.Model.Dist.BetaFamily
import Verif.Model.Dist.Binomial
import Verif.Model.Dist.Cauchy
import Verif.Model.Dist.Cosine
import Verif.Model.Dist.Degenerate
import Verif.Model.Dist.Exponential
import Verif.Model.Dist.Frechet
import Verif.Model.Dist.GEV
import Verif.Model.Dist.GPD
import Verif.Model.Dist.Geometric
import Verif.Model.Dist.Gumbel
import Verif.Model.Dist.Kumaraswamy
import Verif.Model.Dist.Laplace
import Verif.Model.Dist.Logistic
import Verif.Model.Dist.NormalFamily
import Verif.Model.Dist.Pareto
import Verif.Model.Dist.Poisson
import Verif.Model.Dist.Rayleigh
import Verif.Model.Dist.Triangular
import Verif.Model.Dist.Uniform
import Verif.Model.Dist.Weibull

/-! The trait methods of /repo whose body is `unimplemented!()`, `todo!()` or `undefined!()` and which are not modelled with their
distribution, and the provided methods of `Quantiles` and `Distribution` over an implementation that may panic. -/
namespace Rstat

/-! ### provided methods over a panicking `quantile` (src/statistics.rs:86-115) -/
section
variable [FP] (Q : Probability → Except Panic F64)
/-- src/statistics.rs:86 `cquantile` -/
noncomputable def cquantileE (p : Probability) : Except Panic F64 := Q p.not
/-- src/statistics.rs:89 `lower_quartile` -/
noncomputable def lowerQuartileE : Except Panic F64 := Q (Probability.newUnchecked (F64.fin (1 / 4)))
/-- src/statistics.rs:99 `upper_quartile` -/
noncomputable def upperQuartileE : Except Panic F64 := Q (Probability.newUnchecked (F64.fin (3 / 4)))
/-- src/statistics.rs:103 `iqr`: the operands are evaluated from left to right -/
noncomputable def iqrE : Except Panic F64 := do
  let u ← upperQuartileE Q
  let l ← lowerQuartileE Q
  .ok (u - l)
/-- src/statistics.rs:109 `lower_fence` -/
noncomputable def lowerFenceE : Except Panic F64 := do
  let l ← lowerQuartileE Q
  let r ← iqrE Q
  .ok (l - F64.fin (3 / 2) * r)
/-- src/statistics.rs:115 `upper_fence` -/
noncomputable def upperFenceE : Except Panic F64 := do
  let u ← upperQuartileE Q
  let r ← iqrE Q
  .ok (u + F64.fin (3 / 2) * r)
end

/-! ### provided methods over a panicking `cdf` (src/lib.rs:142-152) -/
section
variable [FP] {X : Type} (cdf : X → Except Panic Probability)
/-- src/lib.rs:142 `ccdf` -/
noncomputable def ccdfE (x : X) : Except Panic Probability := do
  let p ← cdf x
  .ok p.not
/-- src/lib.rs:144-147 `log_cdf` -/
noncomputable def logCdfE (x : X) : Except Panic F64 := do
  let p ← cdf x
  .ok p.ln
/-- src/lib.rs:149-152 `log_ccdf` -/
noncomputable def logCcdfE (x : X) : Except Panic F64 := do
  let p ← ccdfE cdf x
  .ok p.ln
end

/-- src/lib.rs:158-160 `sample_n` over a `sample` that may panic: the first panic ends the call. The generator is left in the state in which
the panic occurred. -/
def sampleNE {σ X : Type} (sample : σ → Except Panic X × σ) : ℕ → σ → Except Panic (List X) × σ
  | 0, s => (.ok [], s)
  | n + 1, s =>
    match sample s with
    | (.error e, s') => (.error e, s')
    | (.ok x, s') =>
      match sampleNE sample n s' with
      | (.error e, s'') => (.error e, s'')
      | (.ok xs, s'') => (.ok (x :: xs), s'')

/-! ### `quantile` -/
/-- src/univariate/binomial.rs:126 -/
def Binomial.quantile (_ : Binomial) (_ : Probability) : Except Panic F64 := .error .unimplemented
/-- src/univariate/bernoulli.rs:101 -/
def Bernoulli.quantile (_ : Bernoulli) (_ : Probability) : Except Panic F64 := .error .unimplemented
/-- src/univariate/kumaraswamy.rs:95 -/
def Kumaraswamy.quantile (_ : Kumaraswamy) (_ : Probability) : Except Panic F64 := .error .unimplemented
/-- src/univariate/cosine.rs:93 -/
def Cosine.quantile (_ : Cosine) (_ : Probability) : Except Panic F64 := .error .unimplemented
/-- src/univariate/gumbel.rs:102 -/
def Gumbel.quantile (_ : Gumbel) (_ : Probability) : Except Panic F64 := .error .unimplemented
/-- src/univariate/gev.rs:154 -/
def GeneralisedExtremeValue.quantile (_ : GeneralisedExtremeValue) (_ : Probability) : Except Panic F64 := .error .unimplemented
/-- src/univariate/pareto.rs:120 -/
def Pareto.quantile (_ : Pareto) (_ : Probability) : Except Panic F64 := .error .unimplemented
/-- src/univariate/gpd.rs:118 -/
def GeneralisedPareto.quantile (_ : GeneralisedPareto) (_ : Probability) : Except Panic F64 := .error .unimplemented
/-- src/univariate/frechet.rs:137 -/
def Frechet.quantile (_ : Frechet) (_ : Probability) : Except Panic F64 := .error .unimplemented
/-- src/univariate/chi.rs:96 -/
def Chi.quantile (_ : Chi) (_ : Probability) : Except Panic F64 := .error .unimplemented
/-- src/univariate/logistic.rs:83 -/
def Logistic.quantile (_ : Logistic) (_ : Probability) : Except Panic F64 := .error .unimplemented
/-- src/univariate/weibull.rs:142 -/
def Weibull.quantile (_ : Weibull) (_ : Probability) : Except Panic F64 := .error .unimplemented
/-- src/univariate/poisson.rs:85 -/
def Poisson.quantile (_ : Poisson) (_ : Probability) : Except Panic F64 := .error .unimplemented
/-- src/univariate/triangular.rs:143 -/
def Triangular.quantile (_ : Triangular) (_ : Probability) : Except Panic F64 := .error .unimplemented
/-- src/univariate/degenerate.rs:151-153 -/
def DegenerateI.quantile (_ : DegenerateI) (_ : Probability) : Except Panic F64 := .error .unimplemented
/-- src/univariate/rayleigh.rs:89 -/
def Rayleigh.quantile (_ : Rayleigh) (_ : Probability) : Except Panic F64 := .error .unimplemented
/-- src/univariate/lognormal.rs:108 -/
def LogNormal.quantile (_ : LogNormal) (_ : Probability) : Except Panic F64 := .error .unimplemented
/-- src/univariate/laplace.rs:92 -/
def Laplace.quantile (_ : Laplace) (_ : Probability) : Except Panic F64 := .error .unimplemented
/-- src/univariate/geometric.rs:89 -/
def Geometric.quantile (_ : Geometric) (_ : Probability) : Except Panic F64 := .error .unimplemented
/-- src/univariate/levy.rs:78 -/
def Levy.quantile (_ : Levy) (_ : Probability) : Except Panic F64 := .error .unimplemented
/-- src/univariate/chi_sq.rs:84 -/
def ChiSq.quantile (_ : ChiSq) (_ : Probability) : Except Panic F64 := .error .unimplemented
/-- src/univariate/beta.rs:118 -/
def BetaDist.quantile (_ : BetaDist) (_ : Probability) : Except Panic F64 := .error .unimplemented
/-- src/univariate/student_t.rs:122 -/
def StudentT.quantile (_ : StudentT) (_ : Probability) : Except Panic F64 := .error .unimplemented

/-! ### `cdf` of the multivariate distributions -/
/-- src/multivariate/dirichlet.rs:60 -/
def Dirichlet.cdf {n : ℕ} (_ : Dirichlet n) (_ : Fin n → F64) : Except Panic Probability := .error .todo
/-- src/multivariate/multinomial.rs:86 -/
def Multinomial.cdf {n : ℕ} (_ : Multinomial n) (_ : Fin n → ℕ) : Except Panic Probability := .error .unimplemented
/-- src/multivariate/lognormal.rs:85 (the log-normal law is represented by its underlying normal law) -/
def MvLogNormal.cdf {n : ℕ} {D : Type} (_ : D) (_ : Fin n → F64) : Except Panic Probability := .error .todo
/-- src/normal/multivariate.rs:181 -/
def MvNormal.cdf {n : ℕ} (_ : MvNormal n) (_ : Fin n → F64) : Except Panic Probability := .error .todo
/-- src/normal/multivariate.rs:387 -/
def DiagNormal.cdf {n : ℕ} (_ : DiagNormal n) (_ : Fin n → F64) : Except Panic Probability := .error .todo
/-- src/normal/multivariate.rs:628 -/
def IsoNormal.cdf {n : ℕ} (_ : IsoNormal n) (_ : Fin n → F64) : Except Panic Probability := .error .todo
/-- src/normal/bivariate.rs:117 -/
def BvNormal.cdf (_ : BvNormal) (_ : Fin 2 → F64) : Except Panic Probability := .error .unimplemented
/-- src/normal/paired.rs:91 -/
def PairedNormal.cdf (_ : PairedNormal) (_ : Fin 2 → F64) : Except Panic Probability := .error .unimplemented

/-! ### others -/
/-- src/multivariate/multinomial.rs:88 -/
def Multinomial.sample {n : ℕ} {σ : Type} (_ : Multinomial n) (s : σ) : Except Panic (Fin n → ℕ) × σ := (.error .unimplemented, s)
/-- src/univariate/kumaraswamy.rs:91 -/
def Kumaraswamy.excessKurtosis (_ : Kumaraswamy) : Except Panic F64 := .error .unimplemented
/-- the provided `kurtosis` (src/statistics.rs:27), which src/univariate/kumaraswamy.rs:74-92 does not override -/
noncomputable def Kumaraswamy.kurtosis [FP] (d : Kumaraswamy) : Except Panic F64 := do
  let e ← d.excessKurtosis
  .ok (e + 3)
/-- src/univariate/degenerate.rs:139 -/
def DegenerateI.skewness (_ : DegenerateI) : F64 := F64.fin 0
/-- src/univariate/degenerate.rs:141-143 -/
def DegenerateI.kurtosis (_ : DegenerateI) : Except Panic F64 := .error .undefined
/-- src/univariate/degenerate.rs:145-147 -/
def DegenerateI.excessKurtosis (_ : DegenerateI) : Except Panic F64 := .error .undefined
/-- src/univariate/degenerate.rs:83-85 -/
def DegenerateF.excessKurtosis (_ : DegenerateF) : Except Panic F64 := .error .undefined
end Rstat
