import Verif.Model.Traits
import Verif.Model.Consts

/-! Model of /repo/src/univariate/arcsine.rs (`Display`: Model/Display). -/
namespace Rstat
open Classical Consts

/-- src/univariate/arcsine.rs:13-16,23 `Arcsine(Params { a, w })` -/
@[ext] structure Arcsine where
  a : F64
  w : F64

namespace Arcsine
variable [FP]
/-- src/univariate/arcsine.rs:32-34 `new` with src/params/mod.rs:162-174 `locscale_params!` -/
noncomputable def new (a w : F64) : Except Err Arcsine := do
  let a ← Loc.new a
  let w ← Scale.new w
  .ok ⟨a, w⟩
/-- src/univariate/arcsine.rs:40 -/
noncomputable def default : Arcsine := ⟨0, 1⟩
variable (d : Arcsine)
/-- src/univariate/arcsine.rs:20 `Params::b` -/
noncomputable def b : F64 := d.a + d.w
/-- src/univariate/arcsine.rs:47-51 -/
noncomputable def support : F64 × F64 := (d.a, d.b)
/-- src/univariate/arcsine.rs:55-62 `cdf` -/
noncomputable def cdf (x : F64) : Probability :=
  let xab := (x - d.a) / d.w
  Probability.newUnchecked (TWO_OVER_PI * xab.sqrt.asin)
/-- src/univariate/arcsine.rs:68-73 `pdf` -/
noncomputable def pdf (x : F64) : F64 :=
  let xab := (x - d.a) * (d.b - x)
  ONE_OVER_PI / xab.sqrt
/-- src/univariate/arcsine.rs:79-83 -/
noncomputable def mean : F64 := (d.a + d.b) / 2
/-- src/univariate/arcsine.rs:85-89 -/
noncomputable def variance : F64 := d.w * d.w / 8
/-- src/univariate/arcsine.rs:91 -/
noncomputable def skewness (_ : Arcsine) : F64 := 0
/-- src/univariate/arcsine.rs:93 -/
noncomputable def kurtosis (_ : Arcsine) : F64 := THREE_HALVES
/-- src/univariate/arcsine.rs:95 -/
noncomputable def excessKurtosis (_ : Arcsine) : F64 := -THREE_HALVES
/-- src/univariate/arcsine.rs:99 -/
def quantile (_ : Arcsine) (_ : Probability) : Except Panic F64 := .error .unimplemented
/-- src/univariate/arcsine.rs:101 -/
noncomputable def median : F64 := d.mean
/-- src/univariate/arcsine.rs:105-109 -/
noncomputable def modes : List F64 := [d.a, d.b]
/-- src/univariate/arcsine.rs:113 -/
noncomputable def shannonEntropy (_ : Arcsine) : F64 := PI_OVER_4.ln
end Arcsine
end Rstat
