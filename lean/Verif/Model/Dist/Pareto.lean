import Verif.Model.Traits
import Verif.Model.Consts

/-! Model of /repo/src/univariate/pareto.rs (`Display`: Model/Display; `sample` delegates to `rand_distr`; `quantile` is `unimplemented!()`). -/
namespace Rstat
open Classical Consts

/-- src/univariate/pareto.rs:12-20 `Pareto(Params { x_m, alpha })` -/
@[ext] structure Pareto where
  xm : F64
  alpha : F64

namespace Pareto
variable [FP]
/-- src/univariate/pareto.rs:29-31 `new` with src/params/mod.rs:162-174 `locscale_params!` -/
noncomputable def new (xm alpha : F64) : Except Err Pareto := do
  let xm ← Loc.new xm
  let alpha ← Scale.new alpha
  .ok ⟨xm, alpha⟩
variable (d : Pareto)
/-- src/univariate/pareto.rs:46-50 `cdf` -/
noncomputable def cdf (x : F64) : Probability := Probability.newUnchecked (1 - (d.xm / x).powf d.alpha)
/-- src/univariate/pareto.rs:64-74 `pdf` -/
noncomputable def pdf (x : F64) : F64 :=
  if x < d.xm then 0 else d.alpha * d.xm.powf d.alpha / x.powf (d.alpha + 1)
/-- src/univariate/pareto.rs:80-85 -/
noncomputable def mean : F64 := if d.alpha ≤ 1 then .pinf else d.alpha * d.xm / (d.alpha - 1)
/-- src/univariate/pareto.rs:87-97 -/
noncomputable def variance : F64 :=
  if d.alpha ≤ 2 then .pinf
  else
    let am1 := d.alpha - 1;
    d.xm * d.xm * d.alpha / am1 / am1 / (d.alpha - 2)
/-- src/univariate/pareto.rs:99-104 -/
noncomputable def skewness : Except Panic F64 :=
  if d.alpha ≤ 3 then .error .undefined
  else .ok (2 * (1 + d.alpha) / (d.alpha - 3) * ((d.alpha - 2) / d.alpha).sqrt)
/-- src/univariate/pareto.rs:106-116 -/
noncomputable def excessKurtosis : Except Panic F64 :=
  if d.alpha ≤ 4 then .error .undefined
  else
    let a2 := d.alpha * d.alpha;
    let a3 := a2 * d.alpha;
    .ok (6 * (a3 + a2 - 6 * d.alpha - 2) / d.alpha / (d.alpha - 3) / (d.alpha - 4))
/-- src/univariate/pareto.rs:122-126 -/
noncomputable def median : F64 := d.xm * (2 : F64).powf (1 / d.alpha)
/-- src/univariate/pareto.rs:130 -/
def modes : List F64 := [d.xm]
/-- src/univariate/pareto.rs:134-138 -/
noncomputable def shannonEntropy : F64 := (d.xm / d.alpha * (1 + 1 / d.alpha).exp).ln
/-- src/univariate/pareto.rs:142-150 `fisher_information` -/
noncomputable def fisherInformation : Fin 2 → Fin 2 → F64 :=
  let offDiag := F64.fin (-1) / d.xm;
  ![![d.alpha / d.xm / d.xm, offDiag], ![offDiag, 1 / d.alpha / d.alpha]]
end Pareto
end Rstat
