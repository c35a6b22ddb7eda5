import Verif.Model.Traits
import Verif.Model.Consts
import Verif.Model.Dist.Laplace
/-! Model of /repo/src/univariate/gev.rs (`Display`: Model/Display; `sample` and `quantile` are `unimplemented!()`). -/
namespace Rstat
open Classical Consts

/-- src/univariate/gev.rs:16-25 `GeneralisedExtremeValue(Params { mu, sigma, zeta })` -/
@[ext] structure GeneralisedExtremeValue where
  mu : F64
  sigma : F64
  zeta : F64

namespace GeneralisedExtremeValue
variable [FP]
/-- src/univariate/gev.rs:34-36 `new` with src/params/mod.rs:122 `params!` -/
noncomputable def new (mu sigma zeta : F64) : Except Err GeneralisedExtremeValue := do
  let mu ← Loc.new mu
  let sigma ← Shape.new sigma
  let zeta ← Shape.new zeta
  .ok ⟨mu, sigma, zeta⟩
variable (d : GeneralisedExtremeValue)
/-- the literal `1e-7` -/
noncomputable def eps : F64 := F64.lit (1 / 10 ^ 7)
/-- src/univariate/gev.rs:45 -/
noncomputable def gFunc (k : F64) : F64 := (1 - k * d.zeta).gamma
/-- src/univariate/gev.rs:47-57 -/
noncomputable def tFunc (x : F64) : F64 :=
  let z := (x - d.mu) / d.sigma
  if d.zeta - 0 < eps then (-z).exp else (1 + d.zeta * z).powf (F64.fin (-1) / d.zeta)
/-- src/univariate/gev.rs:68 `cdf` -/
noncomputable def cdf (x : F64) : Probability := Probability.newUnchecked (-d.tFunc x).exp
/-- src/univariate/gev.rs:74-78 `pdf` -/
noncomputable def pdf (x : F64) : F64 :=
  let tx := d.tFunc x;
  tx.powf (d.zeta + 1) * (-tx).exp / d.sigma
/-- src/univariate/gev.rs:84-94 -/
noncomputable def mean : F64 :=
  if 1 ≤ d.zeta then .pinf
  else if d.zeta.abs < eps then d.mu - d.sigma * F64.digamma 1
  else d.mu + d.sigma * (d.gFunc 1 - 1) / d.zeta
/-- src/univariate/gev.rs:96-110 -/
noncomputable def variance : F64 :=
  if F64.fin (1 / 2) ≤ d.zeta then .pinf
  else if d.zeta.abs < eps then d.sigma * d.sigma * PI2_OVER_6
  else
    let g1 := d.gFunc 1;
    let g2 := d.gFunc 2;
    d.sigma * d.sigma * (g2 - g1 * g1) / d.zeta / d.zeta
/-- src/univariate/gev.rs:112-129 -/
noncomputable def skewness : F64 :=
  if ONE_THIRD ≤ d.zeta then .pinf
  else if d.zeta.abs < eps then 12 * (6 : F64).sqrt * (3 : F64).riemannZeta / PI3
  else
    let g1 := d.gFunc 1;
    let g2 := d.gFunc 2;
    let g3 := d.gFunc 3;
    let numerator := g3 - 3 * g2 * g1 + 2 * g1.powi 3;
    let denominator := (g2 - g1 * g1).powf (3 / 2);
    d.zeta.signum * numerator / denominator
/-- src/univariate/gev.rs:131-150 -/
noncomputable def excessKurtosis : F64 :=
  if F64.fin (1 / 4) ≤ d.zeta then .pinf
  else if d.zeta.abs < eps then TWELVE_FIFTHS
  else
    let g1 := d.gFunc 1;
    let g2 := d.gFunc 2;
    let g3 := d.gFunc 3;
    let g4 := d.gFunc 4;
    let numerator := g4 - 4 * g3 * g1 - 3 * g2 * g2 + 12 * g2 * g1 * g1 - 6 * g1.powi 4;
    numerator / (g2 - g1 * g1).powi 2
/-- src/univariate/gev.rs:156-164 -/
noncomputable def median : F64 :=
  if d.zeta.abs < eps then d.mu - d.sigma * (2 : F64).ln.ln
  else d.mu + d.sigma * ((2 : F64).ln.powf (-d.zeta) - 1) / d.zeta
/-- src/univariate/gev.rs:168-176 -/
noncomputable def modes : List F64 :=
  [if d.zeta.abs < eps then d.mu else d.mu + d.sigma * ((1 + d.zeta).powf (-d.zeta) - 1) / d.zeta]
/-- src/univariate/gev.rs:180-184 -/
noncomputable def shannonEntropy : F64 :=
  let euler := -(F64.digamma 1);
  d.sigma.ln + euler * d.zeta + euler + 1
end GeneralisedExtremeValue
end Rstat
