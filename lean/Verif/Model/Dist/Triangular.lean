import Verif.Model.Traits
import Verif.Model.Consts

/-! Model of /repo/src/univariate/triangular.rs (`Display`: Model/Display; `sample` delegates to `rand_distr`; `quantile` is `unimplemented!()`). -/
namespace Rstat
open Classical Consts

/-- src/univariate/triangular.rs:15-22,38 `Triangular(Params { a, a2c, c2b })` -/
@[ext] structure Triangular where
  a : F64
  a2c : F64
  c2b : F64

namespace Triangular
variable [FP]
/-- src/univariate/triangular.rs:47-49 `new` with src/params/mod.rs:122 `params!` -/
noncomputable def new (a a2c c2b : F64) : Except Err Triangular := do
  let a ← Loc.new a
  let a2c ← Scale.new a2c
  let c2b ← Scale.new c2b
  .ok ⟨a, a2c, c2b⟩
/-- src/univariate/triangular.rs:25-29 `Params::symmetric` -/
noncomputable def symmetric (a b : F64) : Except Err Triangular :=
  let d := (b - a) / 2
  new a d d
variable (d : Triangular)
/-- src/univariate/triangular.rs:32 `Params::c` -/
noncomputable def c : F64 := d.a + d.a2c
/-- src/univariate/triangular.rs:35 `Params::b` -/
noncomputable def b : F64 := d.c + d.c2b
/-- src/univariate/triangular.rs:60-62 -/
noncomputable def support : F64 × F64 := (d.a, d.b)
/-- src/univariate/triangular.rs:66-78 `cdf` -/
noncomputable def cdf (x : F64) : Probability :=
  if x ≤ d.a then Probability.zero
  else if x ≤ d.c then Probability.newUnchecked ((x - d.a) * (x - d.a) / (d.b - d.a) / (d.c - d.a))
  else if x ≤ d.b then Probability.newUnchecked (1 - (d.b - x) * (d.b - x) / (d.b - d.a) / (d.b - d.c))
  else Probability.one
/-- src/univariate/triangular.rs:90-104 `pdf` -/
noncomputable def pdf (x : F64) : F64 :=
  if x ≤ d.a then 0
  else if (x - d.c).abs < F64.lit (1 / 10 ^ 7) then 2 / (d.b - d.a)
  else if x < d.c then 2 * (x - d.a) / (d.b - d.a) / (d.c - d.a)
  else if x ≤ d.b then 2 * (d.b - x) / (d.b - d.a) / (d.b - d.c)
  else 0
/-- src/univariate/triangular.rs:110-114 -/
noncomputable def mean : F64 := (d.a + d.b + d.c) / 2
/-- src/univariate/triangular.rs:116-123 -/
noncomputable def variance : F64 :=
  let sqTerms := d.a * d.a + d.b * d.b + d.c * d.c;
  let crossTerms := d.a * d.b + d.a * d.c + d.b * d.c;
  (sqTerms - crossTerms) / 18
/-- src/univariate/triangular.rs:125-135 -/
noncomputable def skewness : F64 :=
  let sqTerms := d.a * d.a + d.b * d.b + d.c * d.c;
  let crossTerms := d.a * d.b + d.a * d.c + d.b * d.c;
  let numerator := (2 : F64).sqrt * (d.a + d.b - 2 * d.c) * (2 * d.a - d.b - d.c) * (d.a - 2 * d.b + d.c);
  numerator / (5 * (sqTerms - crossTerms).powf THREE_HALVES)
/-- src/univariate/triangular.rs:137 -/
noncomputable def kurtosis (_ : Triangular) : F64 := TWELVE_FIFTHS
/-- src/univariate/triangular.rs:139 -/
noncomputable def excessKurtosis (_ : Triangular) : F64 := -THREE_FIFTHS
/-- src/univariate/triangular.rs:145-155 -/
noncomputable def median : F64 :=
  let midpoint := (d.a + d.b) / 2;
  if midpoint ≤ d.c then d.a + ((d.b - d.a) * (d.c - d.a) / 2).sqrt
  else d.b - ((d.b - d.a) * (d.b - d.c) / 2).sqrt
/-- src/univariate/triangular.rs:159 -/
noncomputable def modes : List F64 := [d.c]
/-- src/univariate/triangular.rs:163 -/
noncomputable def shannonEntropy : F64 := 1 + ((d.b - d.a) / 2).ln
end Triangular
end Rstat
