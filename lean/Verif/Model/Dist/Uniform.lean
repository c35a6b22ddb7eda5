import Verif.Model.Traits
import Verif.Model.Consts

/-! Model of /repo/src/univariate/uniform.rs. `sample` delegates to `rand_distr` (see Model/Samplers), `Display` is in
Model/Display. -/
namespace Rstat
open Classical Consts

/-- i64 range -/
def I64MAX : ℤ := 2 ^ 63 - 1
def I64MIN : ℤ := -2 ^ 63
/-- two's complement reduction to i64 (`as i64`, and what release builds do on overflow) -/
def i64wrap (n : ℤ) : ℤ := (n + 2 ^ 63) % 2 ^ 64 - 2 ^ 63
/-- result of an i64 operation with exact result `n`: panics in debug, wraps in release -/
def i64chk (pr : Profile) (n : ℤ) : Except Panic ℤ :=
  if I64MIN ≤ n ∧ n ≤ I64MAX then .ok n
  else match pr with
    | .debug => .error .overflow
    | .release => .ok (i64wrap n)

/-- src/univariate/uniform.rs:67-74 `Uniform<f64>` -/
@[ext] structure UniformF where
  lb : F64
  width : F64
  prob : F64

namespace UniformF
variable [FP]
/-- src/univariate/uniform.rs:34-43 `Params::new` and :78-83 `new` -/
noncomputable def new (lb width : F64) : Except Err UniformF := do
  let lb ← Loc.new lb
  let width ← Scale.new width
  .ok ⟨lb, width, 1 / width⟩
/-- src/univariate/uniform.rs:85-87 `new_unchecked`, :90-97 `From<Params>` -/
noncomputable def fromParams (lb width : F64) : UniformF := ⟨lb, width, 1 / width⟩
/-- src/univariate/uniform.rs:99-106 `Default` -/
noncomputable def default : UniformF := ⟨0, 1, 1⟩
variable (d : UniformF)
/-- src/univariate/uniform.rs:118 `params` -/
def params : F64 × F64 := (d.lb, d.width)
/-- src/univariate/uniform.rs:112-116 `support`: the closed interval between -/
noncomputable def support : F64 × F64 := (d.lb, d.lb + d.width)
/-- src/univariate/uniform.rs:120-131 `cdf` -/
noncomputable def cdf (x : F64) : Probability :=
  let lb := d.lb
  let ub := d.lb + d.width
  if x < lb then Probability.zero
  else if ub ≤ x then Probability.one
  else Probability.newUnchecked ((x - lb) * d.prob)
/-- src/univariate/uniform.rs:143-152 `pdf` -/
noncomputable def pdf (x : F64) : F64 :=
  let lb := d.lb
  let ub := d.lb + d.width
  if x < lb ∨ ub < x then 0 else d.prob
/-- src/univariate/uniform.rs:158 -/
noncomputable def mean : F64 := d.lb + d.width / 2
/-- src/univariate/uniform.rs:160-164 -/
noncomputable def variance : F64 := d.width * d.width / 12
/-- src/univariate/uniform.rs:166 -/
noncomputable def skewness (_ : UniformF) : F64 := 0
/-- src/univariate/uniform.rs:168 -/
noncomputable def kurtosis (_ : UniformF) : F64 := NINE_FIFTHS
/-- src/univariate/uniform.rs:170 -/
noncomputable def excessKurtosis (_ : UniformF) : F64 := -SIX_FIFTHS
/-- src/univariate/uniform.rs:174 -/
noncomputable def quantile (p : Probability) : F64 := d.lb + p.val * d.width
/-- src/univariate/uniform.rs:176 -/
noncomputable def median : F64 := d.lb + d.width / 2
/-- src/univariate/uniform.rs:180 -/
noncomputable def shannonEntropy : F64 := d.width.ln
end UniformF

/-- src/univariate/uniform.rs:67-74 `Uniform<i64>` -/
@[ext] structure UniformI where
  lb : ℤ
  width : ℤ
  prob : F64

namespace UniformI
variable [FP]
/-- src/univariate/uniform.rs:34-43 `Params::new`, :193-198 `new`: `width as i64`, then `Scale` check, then `width + 1` -/
noncomputable def new (pr : Profile) (lb : ℤ) (width : ℕ) : Except Panic (Except Err UniformI) :=
  match Scale.newI (i64wrap width) with
  | .error e => .ok (.error e)
  | .ok w => do
    let w1 ← i64chk pr (w + 1)
    .ok (.ok ⟨lb, w, 1 / F64.ofInt w1⟩)
variable (pr : Profile) (d : UniformI)
/-- src/univariate/uniform.rs:216 `span`: `(width + 1) as u64` -/
def span : Except Panic ℕ := do
  let w1 ← i64chk pr (d.width + 1)
  .ok (w1 % 2 ^ 64).toNat
/-- src/univariate/uniform.rs:229 `params` -/
def params : ℤ × ℤ := (d.lb, d.width)
/-- src/univariate/uniform.rs:223-227 `support`: the closed integer interval between -/
def support : Except Panic (ℤ × ℤ) := do
  let ub ← i64chk pr (d.lb + d.width)
  .ok (d.lb, ub)
/-- src/univariate/uniform.rs:231-242 `cdf` -/
noncomputable def cdf (k : ℤ) : Except Panic Probability := do
  let ub ← i64chk pr (d.lb + d.width)
  if k < d.lb then .ok Probability.zero
  else if ub ≤ k then .ok Probability.one
  else
    let a ← i64chk pr (k - d.lb)
    let b ← i64chk pr (a + 1)
    .ok (Probability.newUnchecked (F64.ofInt b * d.prob))
/-- src/univariate/uniform.rs:254-263 `pmf` -/
noncomputable def pmf (x : ℤ) : Except Panic Probability := do
  let ub ← i64chk pr (d.lb + d.width)
  if x < d.lb ∨ ub < x then .ok Probability.zero else .ok (Probability.newUnchecked d.prob)
/-- src/univariate/uniform.rs:269 -/
noncomputable def mean : F64 := F64.ofInt d.lb + F64.ofInt d.width / 2
/-- src/univariate/uniform.rs:271-275 -/
noncomputable def variance : Except Panic F64 := do
  let n ← d.span pr
  let n := F64.ofNat n
  .ok ((n * n - 1) / 12)
/-- src/univariate/uniform.rs:277 -/
noncomputable def skewness (_ : UniformI) : F64 := 0
/-- src/univariate/uniform.rs:279-284 -/
noncomputable def excessKurtosis : Except Panic F64 := do
  let n ← d.span pr
  let n := F64.ofNat n
  let n2 := n * n
  .ok (-SIX_FIFTHS * (n2 + 1) / (n2 - 1))
/-- src/univariate/uniform.rs:288-292 -/
noncomputable def quantile (p : Probability) : Except Panic F64 := do
  let n ← d.span pr
  .ok (F64.ofInt d.lb + (p.val * F64.ofNat n).floor)
/-- src/univariate/uniform.rs:294 -/
noncomputable def median : F64 := F64.ofInt d.lb + F64.ofInt d.width / 2
/-- src/univariate/uniform.rs:298 -/
noncomputable def shannonEntropy : Except Panic F64 := do
  let w1 ← i64chk pr (d.width + 1)
  .ok (F64.ofInt w1).ln
end UniformI

end Rstat
