import Verif.Model.Traits
import Verif.Model.Consts

/-! Model of /repo/src/univariate/exponential.rs (`Display`: Model/Display, `sample` delegates to `rand_distr`). -/
namespace Rstat
open Classical Consts

/-- src/univariate/exponential.rs:14-21 `Exponential(Params { lambda })` -/
@[ext] structure Exponential where
  lambda : F64

namespace Exponential
variable [FP]
/-- src/univariate/exponential.rs:30-32 `new` -/
noncomputable def new (lambda : F64) : Except Err Exponential := do
  let lambda ← Rate.new lambda
  .ok ⟨lambda⟩
/-- src/univariate/exponential.rs:38 -/
noncomputable def default : Exponential := ⟨1⟩
variable (d : Exponential)
/-- src/univariate/exponential.rs:49-51 `cdf` -/
noncomputable def cdf (x : F64) : Probability := Probability.newUnchecked (1 - (-d.lambda * x).exp)
/-- src/univariate/exponential.rs:61-65 `pdf` -/
noncomputable def pdf (x : F64) : F64 := d.lambda * (-d.lambda * x).exp
/-- src/univariate/exponential.rs:71 -/
noncomputable def mean : F64 := 1 / d.lambda
/-- src/univariate/exponential.rs:73-77 -/
noncomputable def variance : F64 := 1 / d.lambda / d.lambda
/-- src/univariate/exponential.rs:79 -/
noncomputable def skewness (_ : Exponential) : F64 := 2
/-- src/univariate/exponential.rs:81 -/
noncomputable def kurtosis (_ : Exponential) : F64 := 3
/-- src/univariate/exponential.rs:83 -/
noncomputable def excessKurtosis (_ : Exponential) : F64 := 6
/-- src/univariate/exponential.rs:87 `quantile` -/
noncomputable def quantile (p : Probability) : F64 := -(p.not.val) / d.lambda
/-- src/univariate/exponential.rs:89 -/
noncomputable def median : F64 := d.mean * (2 : F64).ln
/-- src/univariate/exponential.rs:93 -/
noncomputable def modes (_ : Exponential) : List F64 := [0]
/-- src/univariate/exponential.rs:97 -/
noncomputable def shannonEntropy : F64 := 1 - d.lambda.ln
/-- src/univariate/exponential.rs:101-105 `fisher_information` -/
noncomputable def fisherInformation : F64 := d.lambda * d.lambda
end Exponential
end Rstat
