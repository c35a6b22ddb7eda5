import Verif.Model.Traits
import Verif.Model.Consts

/-! Model of /repo/src/univariate/degenerate.rs (`Display`: Model/Display). -/
namespace Rstat
open Classical

/-- src/univariate/degenerate.rs:18-21 `Degenerate<f64>` -/
@[ext] structure DegenerateF where
  k : F64
/-- src/univariate/degenerate.rs:18-21 `Degenerate<i64>` -/
@[ext] structure DegenerateI where
  k : ℤ

namespace DegenerateF
variable [FP]
/-- src/univariate/degenerate.rs:24-26 `new` (infallible), :30-32 `From<Loc>` -/
def new (k : F64) : DegenerateF := ⟨k⟩
/-- src/univariate/degenerate.rs:36-38 -/
noncomputable def default : DegenerateF := ⟨0⟩
variable (d : DegenerateF)
/-- src/univariate/degenerate.rs:53 -/
def params : F64 := d.k
/-- src/univariate/degenerate.rs:55-61 `cdf` -/
noncomputable def cdf (x : F64) : Probability := if x < d.k then Probability.zero else Probability.one
/-- src/univariate/degenerate.rs:63 `sample`: the generator is not touched -/
def sample {σ : Type} (s : σ) : F64 × σ := (d.k, s)
/-- src/univariate/degenerate.rs:67-69 `pdf` -/
noncomputable def pdf (x : F64) : F64 := if (x - d.k).abs < F64.lit (1 / 10 ^ 7) then 1 else 0
/-- src/univariate/degenerate.rs:73 -/
def mean : F64 := d.k
/-- src/univariate/degenerate.rs:75 -/
noncomputable def variance (_ : DegenerateF) : F64 := 0
/-- src/univariate/degenerate.rs:77 -/
noncomputable def skewness (_ : DegenerateF) : F64 := 0
/-- src/univariate/degenerate.rs:79-81 and :83-85 (`excess_kurtosis` is the same) -/
def kurtosis (_ : DegenerateF) : Except Panic F64 := .error .undefined
/-- src/univariate/degenerate.rs:89-91 -/
def quantile (_ : DegenerateF) (_ : Probability) : Except Panic F64 := .error .unimplemented
/-- src/univariate/degenerate.rs:93 -/
def median : F64 := d.k
/-- src/univariate/degenerate.rs:97 -/
def modes : List F64 := [d.k]
/-- src/univariate/degenerate.rs:101 -/
noncomputable def shannonEntropy (_ : DegenerateF) : F64 := 0
end DegenerateF

namespace DegenerateI
variable [FP]
/-- src/univariate/degenerate.rs:24-26 `new` (infallible) -/
def new (k : ℤ) : DegenerateI := ⟨k⟩
variable (d : DegenerateI)
/-- src/univariate/degenerate.rs:113-119 `cdf` -/
noncomputable def cdf (x : ℤ) : Probability := if x < d.k then Probability.zero else Probability.one
/-- src/univariate/degenerate.rs:121 `sample` -/
def sample {σ : Type} (s : σ) : ℤ × σ := (d.k, s)
/-- src/univariate/degenerate.rs:125-131 `pmf` -/
noncomputable def pmf (x : ℤ) : Probability := if x = d.k then Probability.one else Probability.zero
/-- src/univariate/degenerate.rs:135 -/
noncomputable def mean : F64 := F64.ofInt d.k
/-- src/univariate/degenerate.rs:137 -/
noncomputable def variance (_ : DegenerateI) : F64 := 0
/-- src/univariate/degenerate.rs:155 -/
noncomputable def median : F64 := F64.ofInt d.k
/-- src/univariate/degenerate.rs:159 -/
def modes : List ℤ := [d.k]
/-- src/univariate/degenerate.rs:163 -/
noncomputable def shannonEntropy (_ : DegenerateI) : F64 := 0
end DegenerateI
end Rstat
