import Verif.Model.Traits
import Verif.Model.Consts

/-! Model of /repo/src/univariate/logistic.rs (`Display`: Model/Display; `sample` and `quantile` are `unimplemented!()`). -/
namespace Rstat
open Classical Consts

/-- src/univariate/logistic.rs:13-21 `Logistic(Params { mu, s })` -/
@[ext] structure Logistic where
  mu : F64
  s : F64

namespace Logistic
variable [FP]
/-- src/univariate/logistic.rs:30-32 `new` with src/params/mod.rs:162-174 `locscale_params!` -/
noncomputable def new (mu s : F64) : Except Err Logistic := do
  let mu ← Loc.new mu
  let s ← Scale.new s
  .ok ⟨mu, s⟩
variable (d : Logistic)
/-- src/univariate/logistic.rs:37-41 -/
noncomputable def z (x : F64) : F64 := (x - d.mu) / d.s
/-- src/univariate/logistic.rs:52-54 `cdf` -/
noncomputable def cdf (x : F64) : Probability := Probability.newUnchecked (1 / (1 + (-d.z x).exp))
/-- src/univariate/logistic.rs:60-65 `pdf` -/
noncomputable def pdf (x : F64) : F64 :=
  let expTerm := (-d.z x).exp
  let expTermP1 := 1 + expTerm
  expTerm / d.s / expTermP1 / expTermP1
/-- src/univariate/logistic.rs:71 -/
def mean : F64 := d.mu
/-- src/univariate/logistic.rs:73 -/
noncomputable def variance : F64 := d.s * d.s * PI2 / 3
/-- src/univariate/logistic.rs:75 -/
noncomputable def skewness (_ : Logistic) : F64 := 0
/-- src/univariate/logistic.rs:77 -/
noncomputable def kurtosis (_ : Logistic) : F64 := TWENTY_ONE_FIFTHS
/-- src/univariate/logistic.rs:79 -/
noncomputable def excessKurtosis (_ : Logistic) : F64 := SIX_FIFTHS
/-- src/univariate/logistic.rs:85 -/
def median : F64 := d.mu
/-- src/univariate/logistic.rs:89 -/
def modes : List F64 := [d.mu]
/-- src/univariate/logistic.rs:93 -/
noncomputable def shannonEntropy : F64 := d.s.ln + 2
end Logistic
end Rstat
