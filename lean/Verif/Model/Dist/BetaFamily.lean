import Verif.Model.Params
import Verif.Model.Utils
import Verif.Model.Consts

/-! Model of /repo/src/univariate/{beta,beta_prime,f_dist,student_t,beta_binomial}.rs (`Display`: Model/Display; `sample` of Beta,
FDist and StudentT delegates to `rand_distr`, the other `sample`s and all `quantile`s are `unimplemented!()`). -/
namespace Rstat
open Classical Consts

/-! ### src/univariate/beta.rs -/

/-- src/univariate/beta.rs:15-25 `Beta(Params { alpha, beta })` -/
@[ext] structure BetaDist where
  alpha : F64
  beta : F64
/-- src/univariate/beta.rs:20-23 `Grad` -/
@[ext] structure BetaDist.Grad where
  alpha : F64
  beta : F64

namespace BetaDist
variable [FP]
/-- src/univariate/beta.rs:34-36 `new` with src/params/mod.rs:176-187 `shape_params!` -/
noncomputable def new (alpha beta : F64) : Except Err BetaDist := do
  let alpha ← Shape.new alpha
  let beta ← Shape.new beta
  .ok ⟨alpha, beta⟩
/-- src/univariate/beta.rs:38-40 `new_unchecked` -/
def newUnchecked (alpha beta : F64) : BetaDist := ⟨alpha, beta⟩
/-- src/univariate/beta.rs:44 -/
noncomputable def default : BetaDist := ⟨1, 1⟩
variable (d : BetaDist)
/-- src/univariate/beta.rs:51 `support`: the closed unit interval -/
noncomputable def support (_ : BetaDist) : F64 × F64 := (0, 1)
/-- src/univariate/beta.rs:53 `params` -/
def params : F64 × F64 := (d.alpha, d.beta)
/-- src/univariate/beta.rs:55-59 `cdf` -/
noncomputable def cdf (x : F64) : Probability := Probability.newUnchecked (x.betainc d.alpha d.beta)
/-- src/univariate/beta.rs:71-78 `pdf` -/
noncomputable def pdf (x : F64) : F64 :=
  let numerator := x.powf (d.alpha - 1) * (1 - x).powf (d.beta - 1)
  let denominator := d.alpha.beta d.beta
  numerator / denominator
/-- src/univariate/beta.rs:84-88 -/
noncomputable def mean : F64 := 1 / (1 + d.beta / d.alpha)
/-- src/univariate/beta.rs:90-95 -/
noncomputable def variance : F64 :=
  let apb := d.alpha + d.beta
  d.alpha * d.beta / (apb * apb * (apb + 1))
/-- src/univariate/beta.rs:97-102 -/
noncomputable def skewness : F64 :=
  let apb := d.alpha + d.beta
  2 * (d.beta - d.alpha) * (apb + 1).sqrt / (apb + 2) / (d.alpha * d.beta).sqrt
/-- src/univariate/beta.rs:104-114 -/
noncomputable def excessKurtosis : F64 :=
  let apb := d.alpha + d.beta
  let asb := d.alpha - d.beta
  let amb := d.alpha * d.beta
  let apbp2 := apb + 2
  3 * asb * asb * (apb + 1) - amb * apbp2 / amb / apbp2 / (apb + 3)
/-- default `kurtosis`, src/statistics.rs:27 -/
noncomputable def kurtosis : F64 := d.excessKurtosis + 3
/-- the literal `1e-7`, src/univariate/beta.rs:123 -/
noncomputable def tol : F64 := F64.lit (1 / 10 ^ 7)
/-- src/univariate/beta.rs:120-138 -/
noncomputable def median : Except Panic F64 :=
  let a := d.alpha
  let b := d.beta
  if (a - b).abs < tol then .ok (F64.fin (1 / 2))
  else if 1 < a ∧ 1 < b then .ok ((a - ONE_THIRD) / (a + b - TWO_THIRDS))
  else if (a - 1).abs < tol then .ok (1 - (2 : F64).powf (F64.fin (-1) / b))
  else if (b - 1).abs < tol then .ok ((2 : F64).powf (F64.fin (-1) / a))
  else if (a - 3).abs < tol ∧ (b - 2).abs < tol then .ok (F64.lit (6142724318676105 / 10 ^ 16))
  else if (a - 2).abs < tol ∧ (b - 3).abs < tol then .ok (F64.lit (38572756813238945 / 10 ^ 17))
  else .error .undefined
/-- src/univariate/beta.rs:142-152 -/
noncomputable def modes : List F64 :=
  if 1 < d.alpha ∧ 1 < d.beta then [(d.alpha - 1) / (d.alpha + d.beta - 2)]
  else if d.alpha < 1 ∧ d.beta < 1 then [0, 1]
  else []
/-- src/univariate/beta.rs:156-161 -/
noncomputable def shannonEntropy : F64 :=
  let am1 := d.alpha - 1
  let bm1 := d.beta - 1
  d.alpha.logbeta d.beta - am1 * d.alpha.digamma - bm1 * d.beta.digamma + (am1 + bm1) * (d.alpha + d.beta).digamma
/-- src/univariate/beta.rs:166, :185 `JITTER` -/
noncomputable def JITTER : F64 := F64.lit (1 / 10 ^ 9)
/-- src/univariate/beta.rs:165-178 -/
noncomputable def logLikelihood (samples : List F64) : F64 :=
  let n := F64.ofNat samples.length
  let am1 := d.alpha - 1
  let bm1 := d.beta - 1
  F64.sum (samples.map fun x => am1 * (x.max JITTER).ln + bm1 * ((1 - x).max JITTER).ln) - n * d.alpha.logbeta d.beta
/-- src/univariate/beta.rs:184-204 -/
noncomputable def score (samples : List F64) : BetaDist.Grad :=
  let apbDigamma := (d.alpha + d.beta).digamma
  let aDigamma := d.alpha.digamma
  let bDigamma := d.beta.digamma
  let r := samples.foldl (fun (acc : F64 × F64) x =>
    (acc.1 + (x.max JITTER).ln - aDigamma + apbDigamma,
     acc.2 + ((1 - x).max JITTER).ln - bDigamma + apbDigamma)) (0, 0)
  ⟨r.1, r.2⟩
end BetaDist

/-! ### src/univariate/beta_prime.rs -/

/-- src/univariate/beta_prime.rs:12-20 -/
@[ext] structure BetaPrime where
  alpha : F64
  beta : F64

namespace BetaPrime
variable [FP]
/-- src/univariate/beta_prime.rs:29-31 `new` -/
noncomputable def new (alpha beta : F64) : Except Err BetaPrime := do
  let alpha ← Shape.new alpha
  let beta ← Shape.new beta
  .ok ⟨alpha, beta⟩
/-- src/univariate/beta_prime.rs:39 -/
noncomputable def default : BetaPrime := ⟨1, 1⟩
variable (d : BetaPrime)
/-- src/univariate/beta_prime.rs:48 `params` -/
def params : F64 × F64 := (d.alpha, d.beta)
/-- src/univariate/beta_prime.rs:50-56 `cdf` -/
noncomputable def cdf (x : F64) : Probability := Probability.newUnchecked ((x / (1 + x)).betainc d.alpha d.beta)
/-- src/univariate/beta_prime.rs:62-71 `pdf` -/
noncomputable def pdf (x : F64) : F64 :=
  let numerator := x.powf (d.alpha - 1) * (1 + x).powf (-d.alpha - d.beta)
  let denominator := d.alpha.beta d.beta
  numerator / denominator
/-- src/univariate/beta_prime.rs:77-85 -/
noncomputable def mean : Except Panic F64 :=
  if d.beta ≤ 1 then .error .undefined else .ok (d.alpha / (d.beta - 1))
/-- src/univariate/beta_prime.rs:87-97 -/
noncomputable def variance : Except Panic F64 :=
  if d.beta ≤ 2 then .error .undefined
  else
    let bm1 := d.beta - 1
    .ok (d.alpha * (d.alpha + bm1) / (d.beta - 2) / bm1 / bm1)
/-- src/univariate/beta_prime.rs:99-109 -/
noncomputable def skewness : Except Panic F64 :=
  if d.beta ≤ 3 then .error .undefined
  else
    let bm1 := d.beta - 1
    .ok (2 * (2 * d.alpha + bm1) / (d.beta - 3) * ((d.beta - 2) / (d.alpha * (d.alpha + bm1))).sqrt)
/-- src/univariate/beta_prime.rs:111-119 -/
noncomputable def excessKurtosis : F64 :=
  let bm1 := d.beta - 1
  let numerator := 6 * (d.alpha + bm1) * (5 * d.beta - 11) + bm1 * bm1 * (d.beta - 2)
  let denominator := d.alpha * (d.alpha + bm1) * (d.beta - 3) * (d.beta - 4)
  numerator / denominator
/-- default `kurtosis`, src/statistics.rs:27 -/
noncomputable def kurtosis : F64 := d.excessKurtosis + 3
/-- src/univariate/beta_prime.rs:123-131 -/
noncomputable def modes : List F64 := if 1 ≤ d.alpha then [(d.alpha - 1) / (d.beta + 1)] else [0]
/-- src/univariate/beta_prime.rs:135-143 -/
noncomputable def shannonEntropy : F64 :=
  let apb := d.alpha + d.beta
  d.alpha.logbeta d.beta - (d.alpha - 1) * d.alpha.digamma - (d.beta - 1) * d.beta.digamma + (apb - 2) * apb.digamma
end BetaPrime

/-! ### src/univariate/f_dist.rs -/

/-- src/univariate/f_dist.rs:14-22 -/
@[ext] structure FDist where
  d1 : ℕ
  d2 : ℕ

namespace FDist
variable [FP]
/-- src/univariate/f_dist.rs:31-33 `new` with src/params/mod.rs:122 `params!` -/
noncomputable def new (d1 d2 : ℕ) : Except Err FDist := do
  let d1 ← DOF.newU d1
  let d2 ← DOF.newU d2
  .ok ⟨d1, d2⟩
variable (d : FDist)
/-- src/univariate/f_dist.rs:44 `params` -/
def params : ℕ × ℕ := (d.d1, d.d2)
/-- `d1 as f64` -/
noncomputable def f1 : F64 := F64.ofNat d.d1
/-- `d2 as f64` -/
noncomputable def f2 : F64 := F64.ofNat d.d2
/-- src/univariate/f_dist.rs:46-55 `cdf` -/
noncomputable def cdf (x : F64) : Probability :=
  let x := d.f1 * x / (d.f1 * x + d.f2)
  Probability.newUnchecked (x.betainc (d.f1 / 2) (d.f2 / 2))
/-- src/univariate/f_dist.rs:69-79 `pdf` -/
noncomputable def pdf (x : F64) : F64 :=
  let numerator := ((d.f1 * x).powf d.f1 * d.f2.powf d.f2 / (d.f1 * x + d.f2).powf (d.f1 + d.f2)).sqrt
  let denominator := x * (d.f1 / 2).beta (d.f2 / 2)
  numerator / denominator
/-- src/univariate/f_dist.rs:85-94 -/
noncomputable def mean : Except Panic F64 := if d.d2 ≤ 2 then .error .undefined else .ok (d.f2 / (d.f2 - 2))
/-- src/univariate/f_dist.rs:96-106 -/
noncomputable def variance : Except Panic F64 :=
  if d.d2 ≤ 4 then .error .undefined
  else
    let d2m2 := d.f2 - 2
    .ok (2 * d.f2 * d.f2 * (d.f1 + d2m2) / d.f1 / d2m2 / d2m2 / (d.f2 - 4))
/-- src/univariate/f_dist.rs:108-120 -/
noncomputable def skewness : Except Panic F64 :=
  if d.d2 ≤ 4 then .error .undefined
  else
    let numerator := (2 * d.f1 + d.f2 - 2) * (8 * (d.f2 - 4)).sqrt
    let denominator := (d.f2 - 6) * (d.f1 * (d.f1 + d.f2 - 2)).sqrt
    .ok (numerator / denominator)
/-- src/univariate/f_dist.rs:122-136 -/
noncomputable def excessKurtosis : Except Panic F64 :=
  if d.d2 ≤ 4 then .error .undefined
  else
    let d2m2 := d.f2 - 2
    let numerator := 12 * d.f1 * (5 * d.f2 - 22) * (d.f1 + d2m2) + (d.f2 - 4) * d2m2 * d2m2
    let denominator := d.f1 * (d.f2 - 6) * (d.f2 - 8) * (d.f1 + d2m2)
    .ok (numerator / denominator)
/-- src/univariate/f_dist.rs:140-149 -/
noncomputable def modes : Except Panic (List F64) :=
  if d.d1 ≤ 2 then .error .undefined else .ok [(d.f1 - 2) / d.f1 * d.f2 / (d.f2 + 2)]
/-- src/univariate/f_dist.rs:153-167 -/
noncomputable def shannonEntropy : F64 :=
  let d1o2 := d.f1 / 2
  let d2o2 := d.f2 / 2
  d1o2.gamma.ln + d2o2.gamma.ln - ((d.f1 + d.f2) / 2).gamma.ln + (1 - d1o2) * (1 + d1o2).digamma
    - (1 - d2o2) * (1 + d2o2).digamma + ((d.f1 + d.f2) / 2) * ((d.f1 + d.f2) / 2).digamma + (d.f1 / d.f2).ln
end FDist

/-! ### src/univariate/student_t.rs -/

/-- src/univariate/student_t.rs:15-22; the parameter is a `Loc`, so it is not constrained at all -/
@[ext] structure StudentT where
  nu : F64

namespace StudentT
variable [FP]
/-- src/univariate/student_t.rs:31 `new` -/
noncomputable def new (nu : F64) : Except Err StudentT := do
  let nu ← Loc.new nu
  .ok ⟨nu⟩
variable (d : StudentT)
/-- src/univariate/student_t.rs:42 `params` -/
def params : F64 := d.nu
/-- src/univariate/student_t.rs:44-54 `cdf` -/
noncomputable def cdf (x : F64) : Probability :=
  let np1o2 := (d.nu + 1) / 2
  let hyp2f1 := (F64.fin (1 / 2)).hyp2f1 np1o2 (3 / 2) (-x * x / d.nu)
  Probability.newUnchecked (F64.fin (1 / 2) + x * np1o2.gamma * hyp2f1 / (d.nu * PI).sqrt * (d.nu / 2).gamma)
/-- src/univariate/student_t.rs:66-74 `pdf` -/
noncomputable def pdf (x : F64) : F64 :=
  let np1o2 := (d.nu + 1) / 2
  let norm := np1o2.gamma / (d.nu * PI).sqrt / (d.nu / 2).gamma
  norm * (1 + x * x / d.nu).powf (-np1o2)
/-- src/univariate/student_t.rs:80-86 -/
noncomputable def mean : Except Panic F64 := if d.nu ≤ 1 then .error .undefined else .ok 0
/-- src/univariate/student_t.rs:88-98 -/
noncomputable def variance : Except Panic F64 :=
  if d.nu ≤ 1 then .error .undefined
  else if d.nu ≤ 2 then .error .undefined
  else .ok (d.nu / (d.nu - 2))
/-- src/univariate/student_t.rs:100-106 -/
noncomputable def skewness : Except Panic F64 := if d.nu ≤ 3 then .error .undefined else .ok 0
/-- src/univariate/student_t.rs:108-118 -/
noncomputable def excessKurtosis : Except Panic F64 :=
  if d.nu ≤ 2 then .error .undefined
  else if d.nu ≤ 4 then .error .undefined
  else .ok (6 / (d.nu - 4))
/-- src/univariate/student_t.rs:124 -/
noncomputable def median (_ : StudentT) : F64 := 0
/-- src/univariate/student_t.rs:128 -/
noncomputable def modes (_ : StudentT) : List F64 := [0]
/-- src/univariate/student_t.rs:132-140 -/
noncomputable def shannonEntropy : F64 :=
  let no2 := d.nu / 2
  let np1o2 := (d.nu + 1) / 2
  np1o2 * (np1o2.gamma - no2.gamma) + (d.nu.sqrt * (no2.beta (F64.fin (1 / 2))))
end StudentT

/-! ### src/univariate/beta_binomial.rs -/

/-- src/univariate/beta_binomial.rs:25-31 -/
@[ext] structure BetaBinomial where
  n : ℕ
  alpha : F64
  beta : F64
  pi : F64
  rho : F64

namespace BetaBinomial
variable [FP]
/-- src/univariate/beta_binomial.rs:59-68 `From<Params>` -/
noncomputable def fromParams (n : ℕ) (alpha beta : F64) : BetaBinomial :=
  ⟨n, alpha, beta, alpha / (alpha + beta), 1 / (alpha + beta + 1)⟩
/-- src/univariate/beta_binomial.rs:40-42 `new` -/
noncomputable def new (n : ℕ) (alpha beta : F64) : Except Err BetaBinomial := do
  let n ← Count.newU n
  let alpha ← Shape.new alpha
  let beta ← Shape.new beta
  .ok (fromParams n alpha beta)
variable (d : BetaBinomial)
/-- src/univariate/beta_binomial.rs:76 `params` -/
def params : ℕ × F64 × F64 := (d.n, d.alpha, d.beta)
/-- src/univariate/beta_binomial.rs:74 `support` (a `Closed` interval) -/
def support (pr : Profile) : Except Panic (ℕ × ℕ) := do
  let ub ← uadd pr d.n 1
  .ok (0, ub)
/-- src/univariate/beta_binomial.rs:48-56 `pmf_raw` -/
noncomputable def pmfRaw (pr : Profile) (k : ℕ) : Except Panic F64 := do
  let c ← choose pr d.n k
  let c := F64.ofNat c
  let z := d.alpha.beta d.beta
  let k := F64.ofNat k
  .ok (c * (k + d.alpha).beta (F64.ofNat d.n - k + d.beta) / z)
/-- src/univariate/beta_binomial.rs:78-84 `cdf` -/
noncomputable def cdf (k : ℕ) : Except Panic Probability := if d.n ≤ k then .ok Probability.one else .error .unimplemented
/-- src/univariate/beta_binomial.rs:90 `pmf` -/
noncomputable def pmf (pr : Profile) (k : ℕ) : Except Panic Probability := do
  let p ← d.pmfRaw pr k
  .ok (Probability.newUnchecked p)
/-- src/univariate/beta_binomial.rs:96 -/
noncomputable def mean : F64 := F64.ofNat d.n * d.pi
/-- src/univariate/beta_binomial.rs:98-102 -/
noncomputable def variance : F64 :=
  let n := F64.ofNat d.n
  n * d.pi * (1 - d.pi) * (1 + (n - 1) * d.rho)
/-- src/univariate/beta_binomial.rs:104-115 -/
noncomputable def skewness : F64 :=
  let n := F64.ofNat d.n
  let ap1 := d.alpha + 1
  let ap2 := ap1 + 1
  let b := n * n * ap1 * ap2 + 3 * n * ap1 * d.beta + d.beta * (d.beta - d.alpha)
  d.pi * d.rho * n * b / (ap2 + d.beta)
/-- src/univariate/beta_binomial.rs:117-132 -/
noncomputable def kurtosis : F64 :=
  let n := F64.ofNat d.n
  let apb := d.alpha + d.beta
  let b1 := d.alpha / (n * d.pi * d.pi * d.rho * d.beta * (apb + 2) * (apb + 3) * (apb + n))
  let b2 := (apb - 1 + 6 * n) / d.alpha
  let b3 := 3 * d.alpha * d.beta * (n - 2)
  let b4 := 6 * n * n
  let b5 := F64.fin (-3) * d.pi * d.beta * n * (6 - n)
  let b6 := F64.fin (-18) * d.pi * d.beta * n * n / apb
  b1 * (b2 + b3 + b4 + b5 + b6)
end BetaBinomial

end Rstat
