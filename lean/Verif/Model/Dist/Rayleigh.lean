import Verif.Model.Traits
import Verif.Model.Consts

/-! Model of /repo/src/univariate/rayleigh.rs (`Display`: Model/Display; `sample` and `quantile` are `unimplemented!()`). -/
namespace Rstat
open Classical Consts

/-- src/univariate/rayleigh.rs:23-30 `Rayleigh(Params { sigma })` -/
@[ext] structure Rayleigh where
  sigma : F64

namespace Rayleigh
variable [FP]
/-- src/univariate/rayleigh.rs:13 -/
noncomputable def TWO_PI_MINUS_3 : F64 := 2 * (PI - 3)
/-- src/univariate/rayleigh.rs:14 -/
noncomputable def FOUR_MINUS_PI : F64 := 4 - PI
/-- src/univariate/rayleigh.rs:15 -/
noncomputable def FOUR_MINUS_PI_OVER_2 : F64 := FOUR_MINUS_PI / 2
/-- src/univariate/rayleigh.rs:17-18 -/
noncomputable def EXCESS_KURTOSIS : F64 :=
  F64.lit (3 / 2) * PI2 - 6 * PI + 16 / FOUR_MINUS_PI_OVER_2 / FOUR_MINUS_PI_OVER_2
/-- src/univariate/rayleigh.rs:19 -/
noncomputable def KURTOSIS : F64 := EXCESS_KURTOSIS + 3
/-- src/univariate/rayleigh.rs:39 `new` with src/params/mod.rs:122 `params!` -/
noncomputable def new (sigma : F64) : Except Err Rayleigh := do
  let sigma ← Shape.new sigma
  .ok ⟨sigma⟩
variable (d : Rayleigh)
/-- src/univariate/rayleigh.rs:52-56 `cdf` -/
noncomputable def cdf (x : F64) : Probability :=
  Probability.newUnchecked (1 - (-x * x / d.sigma * d.sigma / 2).exp)
/-- src/univariate/rayleigh.rs:62-67 `pdf` -/
noncomputable def pdf (x : F64) : F64 :=
  let sigma2 := d.sigma * d.sigma;
  x / sigma2 * (-x * x / sigma2 / 2).exp
/-- src/univariate/rayleigh.rs:73 -/
noncomputable def mean : F64 := d.sigma * PI_OVER_2.sqrt
/-- src/univariate/rayleigh.rs:75-79 -/
noncomputable def variance : F64 := FOUR_MINUS_PI_OVER_2 * d.sigma * d.sigma
/-- src/univariate/rayleigh.rs:81 -/
noncomputable def skewness (_ : Rayleigh) : F64 := TWO_PI_MINUS_3 * PI.sqrt / FOUR_MINUS_PI.powf THREE_HALVES
/-- src/univariate/rayleigh.rs:83 -/
noncomputable def kurtosis (_ : Rayleigh) : F64 := KURTOSIS
/-- src/univariate/rayleigh.rs:85 -/
noncomputable def excessKurtosis (_ : Rayleigh) : F64 := EXCESS_KURTOSIS
/-- src/univariate/rayleigh.rs:91 -/
noncomputable def median : F64 := d.sigma * (2 * (2 : F64).ln).sqrt
/-- src/univariate/rayleigh.rs:95 -/
def modes : List F64 := [d.sigma]
/-- src/univariate/rayleigh.rs:99-105 -/
noncomputable def shannonEntropy : F64 :=
  let gamma := -(F64.digamma 1);
  1 + (d.sigma / (2 : F64).sqrt).ln + gamma / 2
end Rayleigh
end Rstat
