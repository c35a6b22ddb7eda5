import Verif.Model.Traits
import Verif.Model.Consts

/-! Model of /repo/src/univariate/gumbel.rs (`Display`: Model/Display; `sample` and `quantile` are `unimplemented!()`). -/
namespace Rstat
open Classical Consts

/-- src/univariate/gumbel.rs:13-21 `Gumbel(Params { mu, beta })` -/
@[ext] structure Gumbel where
  mu : F64
  beta : F64

namespace Gumbel
variable [FP]
/-- src/univariate/gumbel.rs:30-32 `new` with src/params/mod.rs:162-174 `locscale_params!` -/
noncomputable def new (mu beta : F64) : Except Err Gumbel := do
  let mu ← Loc.new mu
  let beta ← Scale.new beta
  .ok ⟨mu, beta⟩
variable (d : Gumbel)
/-- src/univariate/gumbel.rs:37-41 -/
noncomputable def z (x : F64) : F64 := (x - d.mu) / d.beta
/-- src/univariate/gumbel.rs:56-60 `cdf` -/
noncomputable def cdf (x : F64) : Probability :=
  let z := d.z x;
  Probability.newUnchecked (-(-z).exp).exp
/-- src/univariate/gumbel.rs:66-70 `pdf` -/
noncomputable def pdf (x : F64) : F64 :=
  let z := d.z x;
  (-z - (-z).exp).exp / d.beta
/-- src/univariate/gumbel.rs:76-82 -/
noncomputable def mean : F64 := d.mu + d.beta * -(F64.digamma 1)
/-- src/univariate/gumbel.rs:84-88 -/
noncomputable def variance : F64 := PI2 * d.beta * d.beta / 6
/-- src/univariate/gumbel.rs:90-94 -/
noncomputable def skewness (_ : Gumbel) : F64 := 12 * (6 : F64).sqrt * (3 : F64).riemannZeta / PI3
/-- src/univariate/gumbel.rs:96 -/
noncomputable def kurtosis (_ : Gumbel) : F64 := TWENTY_SEVEN_FIFTHS
/-- src/univariate/gumbel.rs:98 -/
noncomputable def excessKurtosis (_ : Gumbel) : F64 := TWELVE_FIFTHS
/-- src/univariate/gumbel.rs:104-108 -/
noncomputable def median : F64 := d.mu - d.beta * (2 : F64).ln.ln
/-- src/univariate/gumbel.rs:112 -/
def modes : List F64 := [d.mu]
/-- src/univariate/gumbel.rs:116-120 -/
noncomputable def shannonEntropy : F64 := d.beta.ln + -(F64.digamma 1) + 1
end Gumbel
end Rstat
