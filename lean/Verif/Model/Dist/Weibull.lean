import Verif.Model.Traits
import Verif.Model.Consts

/-! Model of /repo/src/univariate/weibull.rs (`Display`: Model/Display; `sample` delegates to `rand_distr`; `quantile` is `unimplemented!()`; the type has no `new`, values are built with `Params::new` and `From<Params>`). -/
namespace Rstat
open Classical Consts

/-- src/univariate/weibull.rs:15-23 `Weibull(Params { lambda, k })` -/
@[ext] structure Weibull where
  lambda : F64
  k : F64

namespace Weibull
variable [FP]
/-- `Params::new(..)?.into()`, src/params/mod.rs:122 `params!` and src/univariate/mod.rs `new_dist!` -/
noncomputable def new (lambda k : F64) : Except Err Weibull := do
  let lambda ← Scale.new lambda
  let k ← Shape.new k
  .ok ⟨lambda, k⟩
variable (d : Weibull)
/-- src/univariate/weibull.rs:32-36 -/
noncomputable def gammaI (num : F64) : F64 := (1 + num / d.k).gamma
/-- src/univariate/weibull.rs:47-55 `cdf` -/
noncomputable def cdf (x : F64) : Probability :=
  if 0 ≤ x then Probability.newUnchecked (1 - (-((x / d.lambda).powf d.k)).exp) else Probability.zero
/-- src/univariate/weibull.rs:67-76 `pdf` -/
noncomputable def pdf (x : F64) : F64 :=
  if 0 ≤ x then
    let xol := x / d.lambda;
    d.k / d.lambda * xol.powf (d.k - 1) * (-(xol.powf d.k)).exp
  else 0
/-- src/univariate/weibull.rs:82 -/
noncomputable def mean : F64 := d.lambda * d.gammaI 1
/-- src/univariate/weibull.rs:84-93 -/
noncomputable def variance : F64 :=
  let t1 := d.gammaI 2;
  let t2 := d.gammaI 1;
  let t := t1 - t2 * t2;
  d.lambda * d.lambda * t
/-- src/univariate/weibull.rs:95-105 -/
noncomputable def skewness : F64 :=
  let mu := d.mean;
  let var := d.variance;
  let numerator := d.gammaI 3 * d.lambda * d.lambda * d.lambda - 3 * mu * var - mu * mu * mu;
  numerator / var.powf THREE_HALVES
/-- src/univariate/weibull.rs:107-123 -/
noncomputable def excessKurtosis : F64 :=
  let g1 := d.gammaI 1;
  let g2 := d.gammaI 2;
  let g1sq := g1 * g1;
  let g2mg1sq := g2 - g1sq;
  let numerator := 12 * g1sq * g2 - 6 * g1sq * g1sq - 3 * g2 * g2 - 4 * g1 * d.gammaI 3 + d.gammaI 4;
  numerator / (g2mg1sq * g2mg1sq)
/-- src/univariate/weibull.rs:144-148 -/
noncomputable def median : F64 := d.lambda * (2 : F64).ln.powf (1 / d.k)
/-- src/univariate/weibull.rs:152-160 -/
noncomputable def modes : List F64 :=
  [if 0 < d.k then 0 else d.lambda * ((d.k - 1) / d.k).powf (1 / d.k)]
/-- src/univariate/weibull.rs:164-171 -/
noncomputable def shannonEntropy : F64 :=
  let gamma := -(F64.digamma 1);
  gamma * (1 - 1 / d.k) + (d.lambda / d.k).ln + 1
end Weibull
end Rstat
