import Verif.Model.Traits
import Verif.Model.Consts

/-! Model of /repo/src/univariate/cauchy.rs (`Display`: Model/Display, `sample` delegates to `rand_distr`). -/
namespace Rstat
open Classical Consts

/-- src/univariate/cauchy.rs:14-22 `Cauchy(Params { x0, gamma })` -/
@[ext] structure Cauchy where
  x0 : F64
  gamma : F64

namespace Cauchy
variable [FP]
/-- src/univariate/cauchy.rs:31-33 `new` with src/params/mod.rs:162-174 `locscale_params!` -/
noncomputable def new (x0 gamma : F64) : Except Err Cauchy := do
  let x0 ← Loc.new x0
  let gamma ← Scale.new gamma
  .ok ⟨x0, gamma⟩
/-- src/univariate/cauchy.rs:51 -/
noncomputable def default : Cauchy := ⟨0, 1⟩
variable (d : Cauchy)
/-- src/univariate/cauchy.rs:40 -/
noncomputable def fwhm : F64 := 2 * d.gamma
/-- src/univariate/cauchy.rs:43-47 -/
noncomputable def z (x : F64) : F64 := (x - d.x0) / d.gamma
/-- src/univariate/cauchy.rs:62-64 `cdf` -/
noncomputable def cdf (x : F64) : Probability :=
  Probability.newUnchecked (ONE_OVER_PI * (d.z x).atan + F64.fin (1 / 2))
/-- src/univariate/cauchy.rs:76-80 `pdf` -/
noncomputable def pdf (x : F64) : F64 :=
  let z := d.z x
  1 / PI / d.gamma / (1 + z * z)
/-- src/univariate/cauchy.rs:86-90 `quantile` -/
noncomputable def quantile (p : Probability) : F64 := d.x0 + d.gamma * (PI * (p.val - F64.fin (1 / 2))).tan
/-- src/univariate/cauchy.rs:92 -/
def median : F64 := d.x0
/-- src/univariate/cauchy.rs:96 -/
def modes : List F64 := [d.x0]
/-- src/univariate/cauchy.rs:100 -/
noncomputable def shannonEntropy : F64 := (4 * PI * d.gamma).ln
/-- src/univariate/cauchy.rs:106-111 `convolve` -/
noncomputable def convolve (e : Cauchy) : Except Err Cauchy := .ok ⟨d.x0 + e.x0, d.gamma + e.gamma⟩
end Cauchy
end Rstat
