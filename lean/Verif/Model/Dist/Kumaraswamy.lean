import Verif.Model.Traits
import Verif.Model.Consts
import Verif.Model.Dist.IntCast

/-! Model of /repo/src/univariate/kumaraswamy.rs (`Display`: Model/Display; `sample` is modelled as a function of the uniform draw; `quantile`, `excess_kurtosis` are `unimplemented!()`; the type has no `new`, values are built with `Params::new` and `From<Params>`). -/
namespace Rstat
open Classical Consts

/-- src/univariate/kumaraswamy.rs:15-20 `Kumaraswamy(Params { a, b })` -/
@[ext] structure Kumaraswamy where
  a : F64
  b : F64

namespace Kumaraswamy
variable [FP]
/-- `Params::new(..)?.into()`, src/params/mod.rs:176-187 `shape_params!` -/
noncomputable def new (a b : F64) : Except Err Kumaraswamy := do
  let a ← Shape.new a
  let b ← Shape.new b
  .ok ⟨a, b⟩
/-- src/univariate/kumaraswamy.rs:13 `harmonic_n` -/
noncomputable def harmonicN (n : ℕ) : F64 := F64.sum ((List.range n).map fun i => 1 / F64.ofNat (i + 1))
variable (d : Kumaraswamy)
/-- src/univariate/kumaraswamy.rs:29-35 -/
noncomputable def momentN (n : ℕ) : F64 := d.b * (1 + F64.ofNat n / d.a).beta d.b
/-- src/univariate/kumaraswamy.rs:50-54 `cdf` -/
noncomputable def cdf (x : F64) : Probability := Probability.newUnchecked (1 - (1 - x.powf d.a).powf d.b)
/-- src/univariate/kumaraswamy.rs:56-61 `sample`, given the draw `u` of the standard uniform law -/
noncomputable def sampleFrom (u : F64) : F64 := (1 - (1 - u).powf (1 / d.b)).powf (1 / d.a)
/-- src/univariate/kumaraswamy.rs:65-69 `pdf` -/
noncomputable def pdf (x : F64) : F64 := d.a * d.b * x.powf (d.a - 1) * (1 - x.powf d.a).powf (d.b - 1)
/-- src/univariate/kumaraswamy.rs:75 -/
noncomputable def mean : F64 := d.momentN 1
/-- src/univariate/kumaraswamy.rs:77-81 -/
noncomputable def variance : F64 :=
  let m1 := d.momentN 1;
  d.momentN 2 - m1 * m1
/-- src/univariate/kumaraswamy.rs:83-89 -/
noncomputable def skewness : F64 :=
  let m3 := d.momentN 3;
  let var := d.variance;
  let mean := d.mean;
  (m3 - 3 * mean * var - mean.powi 3) / var.powf (3 / 2)
/-- src/univariate/kumaraswamy.rs:97-101 -/
noncomputable def median : F64 := (1 - (2 : F64).powf (F64.fin (-1) / d.b)).powf (1 / d.a)
/-- src/univariate/kumaraswamy.rs:105-113 -/
noncomputable def modes : List F64 :=
  if (1 < d.a ∧ 1 ≤ d.b) ∨ (1 ≤ d.a ∧ 1 < d.b) then [((d.a - 1) / (d.a * d.b - 1)).powf (1 / d.a)] else []
/-- src/univariate/kumaraswamy.rs:117-122 -/
noncomputable def shannonEntropy : F64 :=
  let hb := harmonicN d.b.floor.toU64;
  (1 - 1 / d.b) + (1 - 1 / d.a) * hb - (d.a * d.b).ln
end Kumaraswamy
end Rstat
