import Verif.Model.Traits
import Verif.Model.Consts

/-! Model of /repo/src/univariate/gpd.rs (`Display`: Model/Display; `sample` and `quantile` are `unimplemented!()`). -/
namespace Rstat
open Classical Consts

/-- src/univariate/gpd.rs:15-24 `GeneralisedPareto(Params { mu, sigma, zeta })` -/
@[ext] structure GeneralisedPareto where
  mu : F64
  sigma : F64
  zeta : F64

namespace GeneralisedPareto
variable [FP]
/-- src/univariate/gpd.rs:33-35 `new` with src/params/mod.rs:122 `params!` -/
noncomputable def new (mu sigma zeta : F64) : Except Err GeneralisedPareto := do
  let mu ← Loc.new mu
  let sigma ← Shape.new sigma
  let zeta ← Shape.new zeta
  .ok ⟨mu, sigma, zeta⟩
variable (d : GeneralisedPareto)
/-- src/univariate/gpd.rs:50-55 `cdf` -/
noncomputable def cdf (x : F64) : Probability :=
  let z := (x - d.mu) / d.sigma;
  Probability.newUnchecked (1 - (1 + d.zeta * z).powf (F64.fin (-1) / d.zeta))
/-- src/univariate/gpd.rs:61-66 `pdf` -/
noncomputable def pdf (x : F64) : F64 :=
  let z := (x - d.mu) / d.sigma;
  (1 + d.zeta * z).powf (F64.fin (-1) / d.zeta - 1) / d.sigma
/-- src/univariate/gpd.rs:72-80 -/
noncomputable def mean : Except Panic F64 :=
  if d.zeta ≤ 1 then .error .undefined else .ok (d.mu + d.sigma / (1 - d.zeta))
/-- src/univariate/gpd.rs:82-91 -/
noncomputable def variance : Except Panic F64 :=
  if d.zeta ≤ F64.fin (1 / 2) then .error .undefined
  else .ok (d.sigma * d.sigma / (1 - d.zeta).powi 2 / (1 - 2 * d.zeta))
/-- src/univariate/gpd.rs:93-101 -/
noncomputable def skewness : Except Panic F64 :=
  if d.zeta ≤ ONE_THIRD then .error .undefined
  else .ok (2 * (1 + d.zeta) * (1 - 2 * d.zeta).sqrt / (1 - 3 * d.zeta))
/-- src/univariate/gpd.rs:103-114 -/
noncomputable def excessKurtosis : Except Panic F64 :=
  if d.zeta ≤ ONE_THIRD then .error .undefined
  else .ok (3 * (1 - 2 * d.zeta) * (2 * d.zeta * d.zeta + d.zeta + 3) / (1 - 3 * d.zeta) / (1 - 4 * d.zeta) - 3)
/-- src/univariate/gpd.rs:120-124 -/
noncomputable def median : F64 := d.mu + d.sigma * ((2 : F64).powf d.zeta - 1) / d.zeta
/-- src/univariate/gpd.rs:128 -/
noncomputable def shannonEntropy : F64 := d.sigma.ln + d.zeta + 1
end GeneralisedPareto
end Rstat
