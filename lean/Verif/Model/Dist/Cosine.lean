import Verif.Model.Traits
import Verif.Model.Consts

/-! Model of /repo/src/univariate/cosine.rs (`Display`: Model/Display; `sample` and `quantile` are `unimplemented!()`). -/
namespace Rstat
open Classical Consts

/-- src/univariate/cosine.rs:13-21 `Cosine(Params { mu, s })` -/
@[ext] structure Cosine where
  mu : F64
  s : F64

namespace Cosine
variable [FP]
/-- src/univariate/cosine.rs:30-32 `new` with src/params/mod.rs:162-174 `locscale_params!` -/
noncomputable def new (mu s : F64) : Except Err Cosine := do
  let mu ← Loc.new mu
  let s ← Scale.new s
  .ok ⟨mu, s⟩
variable (d : Cosine)
/-- src/univariate/cosine.rs:37-41 -/
noncomputable def z (x : F64) : F64 := (x - d.mu) / d.s
/-- src/univariate/cosine.rs:44 -/
noncomputable def hvc (x : F64) : F64 := ((d.z x * PI).cos + 1) / 2
/-- src/univariate/cosine.rs:51-55 -/
noncomputable def support : F64 × F64 := (d.mu - d.s, d.mu + d.s)
/-- src/univariate/cosine.rs:59-63 `cdf` -/
noncomputable def cdf (x : F64) : Probability :=
  let z := d.z x;
  Probability.newUnchecked (F64.fin (1 / 2) * (1 + z + ONE_OVER_PI * (z * PI).sin))
/-- src/univariate/cosine.rs:69 `pdf` -/
noncomputable def pdf (x : F64) : F64 := F64.fin (1 / 2) * d.hvc x
/-- src/univariate/cosine.rs:75 -/
def mean : F64 := d.mu
/-- src/univariate/cosine.rs:77-81 -/
noncomputable def variance : F64 := d.s * d.s * (ONE_THIRD - TWO_OVER_PI2)
/-- src/univariate/cosine.rs:83 -/
noncomputable def skewness (_ : Cosine) : F64 := 0
/-- src/univariate/cosine.rs:85-89 -/
noncomputable def excessKurtosis (_ : Cosine) : F64 :=
  let v := PI2 - 6;
  6 * (60 - PI4) / 5 / v / v
/-- src/univariate/cosine.rs:95 -/
def median : F64 := d.mu
/-- src/univariate/cosine.rs:99 -/
def modes : List F64 := [d.mu]
end Cosine
end Rstat
