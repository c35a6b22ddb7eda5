import Verif.Model.Traits
import Verif.Model.Dist.IntCast

/-! Model of /repo/src/univariate/geometric.rs (`Display`: Model/Display, `sample` delegates to `rand_distr`). -/
namespace Rstat
open Classical

/-- src/univariate/geometric.rs:13-24 `Geometric { params: Params { p }, q }` -/
@[ext] structure Geometric where
  p : Probability
  q : Probability

namespace Geometric
variable [FP]
/-- src/univariate/geometric.rs:32-39 `From<Params>`; :29 `new_unchecked` -/
noncomputable def fromParams (p : Probability) : Geometric := ⟨p, p.not⟩
/-- src/univariate/geometric.rs:27 `new` -/
noncomputable def new (p : F64) : Except Err Geometric := do
  let ps ← Probability.newE p
  .ok (fromParams ps)
variable (d : Geometric)
/-- src/univariate/geometric.rs:47 `params` -/
def params : Probability := d.p
/-- src/univariate/geometric.rs:49-51 `cdf`: `*k as i32 + 1` -/
noncomputable def cdf (pr : Profile) (k : ℕ) : Except Panic Probability := do
  let e ← i32chk pr (i32wrap k + 1)
  .ok (Probability.newUnchecked (1 - d.q.powi e))
/-- src/univariate/geometric.rs:63-65 `pmf` -/
noncomputable def pmf (k : ℕ) : Probability := Probability.newUnchecked (d.p.val * d.q.powi (i32wrap k))
/-- src/univariate/geometric.rs:71 -/
noncomputable def mean : F64 := d.q.val / d.p.val
/-- src/univariate/geometric.rs:73-77 -/
noncomputable def variance : F64 := d.q.val / d.p.val / d.p.val
/-- src/univariate/geometric.rs:79-83 -/
noncomputable def skewness : F64 := (2 - d.p.val) / d.q.val.sqrt
/-- src/univariate/geometric.rs:85 -/
noncomputable def excessKurtosis : F64 := 6 + 1 / d.variance
/-- default `kurtosis`, src/statistics.rs:27 -/
noncomputable def kurtosis : F64 := d.excessKurtosis + 3
/-- src/univariate/geometric.rs:91 -/
noncomputable def median : F64 := (-1) / d.q.log2 - 1
/-- src/univariate/geometric.rs:95 -/
def modes (_ : Geometric) : List ℕ := [0]
/-- src/univariate/geometric.rs:99-103 -/
noncomputable def shannonEntropy : F64 := (-d.q.val * d.q.val.log2 - d.p.val * d.p.val.log2) / d.p.val
end Geometric
end Rstat
