import Verif.Model.Traits
import Verif.Model.Consts

/-! Model of /repo/src/univariate/frechet.rs (`Display`: Model/Display; `sample` is modelled as a function of the uniform draw; `quantile` is `unimplemented!()`). -/
namespace Rstat
open Classical Consts

/-- src/univariate/frechet.rs:15-21 `Frechet(Params { alpha })` -/
@[ext] structure Frechet where
  alpha : F64

namespace Frechet
variable [FP]
/-- src/univariate/frechet.rs:30 `new` with src/params/mod.rs:122 `params!` -/
noncomputable def new (alpha : F64) : Except Err Frechet := do
  let alpha ← Shape.new alpha
  .ok ⟨alpha⟩
variable (d : Frechet)
/-- src/univariate/frechet.rs:47-49 `cdf` -/
noncomputable def cdf (x : F64) : Probability := Probability.newUnchecked (-(x.powf (-d.alpha))).exp
/-- src/univariate/frechet.rs:51-55 `sample`, given the draw `u` of the standard uniform law -/
noncomputable def sampleFrom (u : F64) : F64 := (-u.ln).powf (1 / d.alpha)
/-- src/univariate/frechet.rs:59-64 `pdf` -/
noncomputable def pdf (x : F64) : F64 :=
  let cdf := (d.cdf x).unwrap;
  d.alpha * x.powf (F64.fin (-1) - d.alpha) * cdf
/-- src/univariate/frechet.rs:70-79 -/
noncomputable def mean : F64 := if d.alpha ≤ 1 then .pinf else (1 - 1 / d.alpha).gamma
/-- src/univariate/frechet.rs:81-92 -/
noncomputable def variance : F64 :=
  if d.alpha ≤ 2 then .pinf
  else
    let g1 := (1 - 1 / d.alpha).gamma;
    (1 - 2 / d.alpha).gamma - g1 * g1
/-- src/univariate/frechet.rs:94-113 -/
noncomputable def skewness : F64 :=
  if d.alpha ≤ 3 then .pinf
  else
    let g1 := (1 - 1 / d.alpha).gamma;
    let g2 := (1 - 2 / d.alpha).gamma;
    let numerator := (1 - 3 / d.alpha).gamma - 3 * g2 * g1 + 2 * g1 * g1 * g1;
    let inner := g2 - g1 * g1;
    numerator / (inner * inner * inner).sqrt
/-- src/univariate/frechet.rs:115-133 -/
noncomputable def excessKurtosis : F64 :=
  if d.alpha ≤ 4 then .pinf
  else
    let g1 := (1 - 1 / d.alpha).gamma;
    let g2 := (1 - 2 / d.alpha).gamma;
    let numerator := (1 - 4 / d.alpha).gamma - 4 * (1 - 3 / d.alpha).gamma * g1 + 3 * g2 * g2;
    let inner := g2 - g1 * g1;
    numerator / (inner * inner) - 6
/-- src/univariate/frechet.rs:139 -/
noncomputable def median : F64 := 1 / (2 : F64).ln.powf (1 / d.alpha)
/-- src/univariate/frechet.rs:143-147 -/
noncomputable def modes : List F64 := [(d.alpha / (1 + d.alpha)).powf (1 / d.alpha)]
/-- src/univariate/frechet.rs:151-158 -/
noncomputable def shannonEntropy : F64 :=
  let gamma := -(F64.digamma 1);
  1 + gamma / d.alpha + gamma + (1 / d.alpha).ln
end Frechet
end Rstat
