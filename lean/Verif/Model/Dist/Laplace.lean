import Verif.Model.Traits
import Verif.Model.Consts

/-! Model of /repo/src/univariate/laplace.rs (`Display`: Model/Display; `sample` is modelled as a function of the uniform draw on `[-0.5, 0.5)`). -/
namespace Rstat
open Classical Consts

/-- `f64::signum`: the sign of the sign bit (1 for +0, -1 for -0), NaN for NaN -/
noncomputable def F64.signum (a : F64) : F64 :=
  match a with
  | .nan => .nan
  | a => if a.isNeg then .fin (-1) else 1

/-- src/univariate/laplace.rs:13-21 `Laplace(Params { mu, b })` -/
@[ext] structure Laplace where
  mu : F64
  b : F64

namespace Laplace
variable [FP]
/-- src/univariate/laplace.rs:30-32 `new` with src/params/mod.rs:162-174 `locscale_params!` -/
noncomputable def new (mu b : F64) : Except Err Laplace := do
  let mu ← Loc.new mu
  let b ← Scale.new b
  .ok ⟨mu, b⟩
variable (d : Laplace)
/-- src/univariate/laplace.rs:45-49 `cdf` -/
noncomputable def cdf (x : F64) : Probability :=
  Probability.newUnchecked ((-((x - d.mu).abs / d.b).abs).exp / 2 / d.b)
/-- src/univariate/laplace.rs:51-58 `sample`, given the draw `u` of `rand_distr::Uniform::new(-0.5, 0.5)` -/
noncomputable def sampleFrom (u : F64) : F64 := d.mu - d.b * u.signum * (1 - 2 * u.abs).ln
/-- src/univariate/laplace.rs:62-74 `pdf`; the `expect` panics when the comparison is unordered -/
noncomputable def pdf (x : F64) : Except Panic F64 :=
  if x < d.mu ∨ x.feq d.mu then .ok (((x - d.mu) / d.b).exp / 2)
  else if d.mu < x then .ok (1 - ((d.mu - x) / d.b).exp / 2)
  else .error .unwrap
/-- src/univariate/laplace.rs:80 -/
def mean : F64 := d.mu
/-- src/univariate/laplace.rs:82 -/
noncomputable def variance : F64 := 2 * d.b * d.b
/-- src/univariate/laplace.rs:84 -/
noncomputable def skewness (_ : Laplace) : F64 := 0
/-- src/univariate/laplace.rs:86 -/
noncomputable def kurtosis (_ : Laplace) : F64 := 6
/-- src/univariate/laplace.rs:88 -/
noncomputable def excessKurtosis (_ : Laplace) : F64 := 3
/-- src/univariate/laplace.rs:94 -/
def median : F64 := d.mu
/-- src/univariate/laplace.rs:98 -/
def modes : List F64 := [d.mu]
/-- src/univariate/laplace.rs:102 -/
noncomputable def shannonEntropy : F64 := (2 * d.b * E).ln
end Laplace
end Rstat
