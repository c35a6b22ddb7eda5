import Verif.Model.Traits
import Verif.Model.Consts
import Verif.Model.Utils
import Verif.Model.Dist.IntCast

/-! Model of /repo/src/univariate/poisson.rs (`Display`: Model/Display, `sample` delegates to `rand_distr`). -/
namespace Rstat
open Classical Consts

/-- src/univariate/poisson.rs:18-29 `Poisson(Params { lambda })` -/
@[ext] structure Poisson where
  lambda : F64

namespace Poisson
variable [FP]
/-- src/univariate/poisson.rs:38-40 `new` -/
noncomputable def new (lambda : F64) : Except Err Poisson := do
  let lambda ← Rate.new lambda
  .ok ⟨lambda⟩
variable (d : Poisson)
/-- src/univariate/poisson.rs:51 `params` -/
def params : F64 := d.lambda
/-- src/univariate/poisson.rs:53 `cdf` -/
def cdf (_ : Poisson) (_ : ℕ) : Except Panic Probability := .error .unimplemented
/-- src/univariate/poisson.rs:65-69 `log_pmf` -/
noncomputable def logPmf (pr : Profile) (k : ℕ) : Except Panic F64 := do
  let lf ← logFactorialStirling pr k
  .ok (F64.ofNat k * d.lambda.ln - d.lambda - lf)
/-- default `pmf`, src/lib.rs:217-219, through the overridden `log_pmf` -/
noncomputable def pmf (pr : Profile) (k : ℕ) : Except Panic Probability := do
  let l ← d.logPmf pr k
  .ok (Probability.newUnchecked l.exp)
/-- src/univariate/poisson.rs:75 -/
def mean : F64 := d.lambda
/-- src/univariate/poisson.rs:77 -/
def variance : F64 := d.lambda
/-- src/univariate/poisson.rs:79 -/
noncomputable def skewness : F64 := d.lambda.powf (-ONE_HALF)
/-- src/univariate/poisson.rs:81 -/
noncomputable def kurtosis : F64 := 1 / d.lambda
/-- default `excess_kurtosis`, src/statistics.rs:30 -/
noncomputable def excessKurtosis : F64 := d.kurtosis - 3
/-- src/univariate/poisson.rs:87-91 -/
noncomputable def median : F64 := (d.lambda + ONE_THIRD - F64.lit (2 / 100) / d.lambda).floor
/-- src/univariate/poisson.rs:95 -/
noncomputable def modes : List ℕ := [d.lambda.floor.toU64]
/-- src/univariate/poisson.rs:99-106 -/
noncomputable def shannonEntropy : F64 :=
  let l := d.lambda
  (PI_E_2 * l).ln / 2 - ONE_TWELTH / l - ONE_TWENTY_FOURTH / l / l - NINETEEN_OVER_360 / l / l / l
/-- src/univariate/poisson.rs:110 -/
def fisherInformation : F64 := d.lambda
/-- src/univariate/poisson.rs:114-124; the iterator is evaluated in order, so the first panic is the panic -/
noncomputable def logLikelihood (pr : Profile) (samples : List ℕ) : Except Panic F64 := do
  let n := F64.ofNat samples.length
  let l := d.lambda
  let lLn := l.ln
  let ts ← samples.mapM fun k => do
    let lf ← logFactorialStirling pr k
    .ok (lLn * F64.ofNat k - lf)
  .ok (-n * l + F64.sum ts)
/-- `Iterator::sum::<u64>()` -/
def sumU64 (pr : Profile) (xs : List ℕ) : Except Panic ℕ := xs.foldlM (uadd pr) 0
/-- src/univariate/poisson.rs:130-137 -/
noncomputable def score (pr : Profile) (samples : List ℕ) : Except Panic F64 := do
  let n := F64.ofNat samples.length
  let s ← sumU64 pr samples
  .ok (n + F64.ofNat s / d.lambda)
/-- src/univariate/poisson.rs:141-145 `fit_mle` -/
noncomputable def fitMle (xs : List ℕ) : Except Err Poisson :=
  let n := F64.ofNat xs.length
  new (xs.foldl (fun acc x => acc + F64.ofNat x) 0 / n)
/-- src/univariate/poisson.rs:151-155 `convolve` -/
noncomputable def convolve (rv : Poisson) : Except Err Poisson := .ok ⟨d.lambda + rv.lambda⟩
end Poisson
end Rstat
