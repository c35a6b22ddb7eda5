import Verif.Model.Traits
import Verif.Model.Consts
import Verif.Model.Utils
import Verif.Model.Dist.IntCast

/-! Model of /repo/src/univariate/binomial.rs and /repo/src/univariate/bernoulli.rs (the two refer to each other).
`Display` is in Model/Display, `sample` delegates to `rand`/`rand_distr`. -/
namespace Rstat
open Classical Consts

/-- src/params/constraints.rs:12-14 `assert_constraint!(p1 == p2)?` on two `Probability` values: `Equal(p2).check(p1)`
compares the wrapped f64s and gives back `p1` -/
noncomputable def assertEqP (p1 p2 : Probability) : Except Err Probability :=
  match (Cst.equal (s := .f64) p2.val).check p1.val with
  | .ok _ => .ok p1
  | .error e => .error (.uce _ e)

/-- src/univariate/binomial.rs:18-30 `Binomial { params: Params { n, p }, q }` -/
@[ext] structure Binomial where
  n : ℕ
  p : Probability
  q : Probability

/-- src/univariate/bernoulli.rs:14-31 `Bernoulli { params: Params { p }, q, variance }` -/
@[ext] structure Bernoulli where
  p : Probability
  q : Probability
  variance : F64

namespace Binomial
variable [FP]
/-- src/univariate/binomial.rs:39-44 `new` -/
noncomputable def new (n : ℕ) (p : Probability) : Except Err Binomial := do
  let n ← Count.newU n
  let p ← Probability.newE p.val
  .ok ⟨n, p, p.not⟩
/-- src/univariate/binomial.rs:46-51 `new_unchecked` -/
noncomputable def newUnchecked (n : ℕ) (p : Probability) : Binomial := ⟨n, p, p.not⟩
/-- src/univariate/binomial.rs:54-56 `From<Params>` -/
noncomputable def fromParams (ps : ℕ × Probability) : Binomial := newUnchecked ps.1 ps.2
variable (d : Binomial)
/-- src/univariate/binomial.rs:64 `params` -/
def params : ℕ × Probability := (d.n, d.p)
/-- src/univariate/binomial.rs:62 `support`: the closed integer interval between -/
def support (pr : Profile) : Except Panic (ℕ × ℕ) := do
  let ub ← uadd pr d.n 1
  .ok (0, ub)
/-- src/univariate/binomial.rs:66-73 `cdf` -/
noncomputable def cdf (pr : Profile) (k : ℕ) : Except Panic Probability := do
  let a ← usub pr d.n k
  let b ← uadd pr k 1
  .ok (Probability.newUnchecked (d.q.val.betainc (F64.ofNat a) (F64.ofNat b)))
/-- src/univariate/binomial.rs:86-96 `pmf` -/
noncomputable def pmf (pr : Profile) (k : ℕ) : Except Panic Probability := do
  let c ← choose pr d.n k
  let bc := F64.ofNat c
  let probSuccesses := d.p.powi (i32wrap k)
  let nk ← usub pr d.n k
  let probFailures := d.q.powi (i32wrap nk)
  let prob := probSuccesses * probFailures
  .ok (Probability.newUnchecked (bc * prob))
/-- src/univariate/binomial.rs:102-106 -/
noncomputable def mean : F64 := d.p.val * F64.ofNat d.n
/-- src/univariate/binomial.rs:108-113 -/
noncomputable def variance : F64 := d.p.val * d.q.val * F64.ofNat d.n
/-- src/univariate/binomial.rs:115 -/
noncomputable def skewness : F64 := (1 - d.p.val * 2) / d.variance.sqrt
/-- src/univariate/binomial.rs:117-122 -/
noncomputable def kurtosis : F64 := (1 - 6 * d.p.val * d.q.val) / (F64.ofNat d.n * d.p.val * d.q.val)
/-- default `excess_kurtosis`, src/statistics.rs:30 -/
noncomputable def excessKurtosis : F64 := d.kurtosis - 3
/-- src/univariate/binomial.rs:128 -/
noncomputable def median : F64 := d.mean.roundHalf
/-- src/univariate/binomial.rs:132-136 -/
noncomputable def modes : List ℕ := [(d.p.val * F64.ofNat d.n).floor.toU64]
/-- src/univariate/binomial.rs:140 -/
noncomputable def shannonEntropy : F64 := (2 * PI_E * d.variance).log2 / 2
/-- src/univariate/binomial.rs:144-148 -/
noncomputable def fisherInformation : F64 := F64.ofNat d.n / d.p.val / d.q.val
/-- src/univariate/binomial.rs:154-159 `convolve` with a Bernoulli; the sum `n + 1` is evaluated before the equality check -/
noncomputable def convolveBernoulli (pr : Profile) (rv : Bernoulli) : Except Panic (Except Err Binomial) := do
  let n ← uadd pr d.n 1
  .ok (match assertEqP d.p rv.p with
    | .error e => .error e
    | .ok p => Binomial.new n p)
/-- src/univariate/binomial.rs:165-172 `convolve` with a Binomial -/
noncomputable def convolve (pr : Profile) (rv : Binomial) : Except Panic (Except Err Binomial) :=
  match assertEqP d.p rv.p with
  | .error e => .ok (.error e)
  | .ok _ => do
    let n ← uadd pr d.n rv.n
    .ok (Binomial.new n d.p)
end Binomial

namespace Bernoulli
variable [FP]
/-- src/univariate/bernoulli.rs:34-40 `new` (the variance uses the raw argument) -/
noncomputable def new (p : F64) : Except Err Bernoulli := do
  let ps ← Probability.newE p
  .ok ⟨ps, ps.not, p * (1 - p)⟩
/-- src/univariate/bernoulli.rs:45-54 `From<Params>`; :42 `new_unchecked` -/
noncomputable def fromParams (p : Probability) : Bernoulli := ⟨p, p.not, p.val * (1 - p.val)⟩
variable (d : Bernoulli)
/-- src/univariate/bernoulli.rs:62 `params` -/
def params : Probability := d.p
/-- src/univariate/bernoulli.rs:60 `support`: `{false, true}` -/
def support (_ : Bernoulli) : List Bool := [false, true]
/-- src/univariate/bernoulli.rs:64-70 `cdf` -/
noncomputable def cdf (_ : Bernoulli) (k : Bool) : Probability := if k then Probability.one else Probability.zero
/-- src/univariate/bernoulli.rs:78-83 `pmf` -/
def pmf (k : Bool) : Probability := match k with
  | true => d.p
  | false => d.q
/-- default `log_pmf`, src/lib.rs:221-224 -/
noncomputable def logPmf (k : Bool) : F64 := (d.pmf k).ln
/-- src/univariate/bernoulli.rs:89 -/
def mean : F64 := d.p.val
-- :91 `variance` is the structure field
/-- src/univariate/bernoulli.rs:93 -/
noncomputable def skewness : F64 := (1 - 2 * d.p.val) / d.variance.sqrt
/-- src/univariate/bernoulli.rs:95 -/
noncomputable def kurtosis : F64 := 1 / d.variance - 6
/-- src/univariate/bernoulli.rs:97 -/
noncomputable def excessKurtosis : F64 := 1 / d.variance - 9
/-- src/univariate/bernoulli.rs:103-109 -/
noncomputable def median : F64 :=
  if (d.p.val - F64.fin (1 / 2)).abs < F64.lit (1 / 10 ^ 7) then F64.fin (1 / 2)
  else if d.p.val < F64.fin (1 / 2) then 0 else 1
/-- src/univariate/bernoulli.rs:112-123 -/
noncomputable def modes : Except Panic (List Bool) :=
  match d.p.val.partialCmp d.q.val with
  | some .lt => .ok [false]
  | some .eq => .ok [false, true]
  | some .gt => .ok [false]
  | none => .error .explicit
/-- src/univariate/bernoulli.rs:126-135 -/
noncomputable def shannonEntropy : F64 :=
  let p := d.p.val
  let q := d.q.val
  if q.abs < F64.lit (1 / 10 ^ 7) ∨ (q - 1).abs < F64.lit (1 / 10 ^ 7) then 0
  else -q * q.ln - p * p.ln
/-- src/univariate/bernoulli.rs:139 -/
noncomputable def fisherInformation : F64 := 1 / d.variance
/-- src/univariate/bernoulli.rs:143-145 -/
noncomputable def logLikelihood (samples : List Bool) : F64 := F64.sum (samples.map d.logPmf)
/-- src/univariate/bernoulli.rs:151-155 -/
noncomputable def score (samples : List Bool) : F64 := F64.sum (samples.map fun x => 1 / (d.pmf x).val)
/-- src/univariate/bernoulli.rs:159-164 `fit_mle` (a slice has fewer than 2^63 elements, so the u64 count cannot overflow) -/
noncomputable def fitMle (xs : List Bool) : Except Err Bernoulli :=
  let n := F64.ofNat xs.length
  let p := F64.ofNat (xs.foldl (fun acc x => acc + x.toNat) 0) / n
  new p
/-- src/univariate/bernoulli.rs:170-177 `convolve` -/
noncomputable def convolve (rv : Bernoulli) : Except Err Binomial :=
  match assertEqP d.p rv.p with
  | .error e => .error e
  | .ok _ => .ok (Binomial.newUnchecked 2 d.p)
end Bernoulli
end Rstat
