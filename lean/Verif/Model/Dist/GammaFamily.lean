import Verif.Model.Params
import Verif.Model.Utils
import Verif.Model.Consts
import Verif.Model.Dist.Exponential

/-! Model of /repo/src/univariate/{gamma,chi_sq,chi,erlang,inverse_gamma}.rs (`Display`: Model/Display; `sample` of Gamma and
ChiSq delegates to `rand_distr`, see Model/Samplers; the other `sample`s and all `quantile`s are `unimplemented!()`). -/
namespace Rstat
open Classical Consts

/-- src/params/constraints.rs:12-14 `assert_constraint!(a == b)?` on f64 values: `Equal(b).check(a)` -/
noncomputable def assertEqF (a b : F64) : Except Err F64 := ((Cst.equal (s := .f64) b).check a).mapError (Err.uce _)
/-- src/params/constraints.rs:12-14 `assert_constraint!(a == b)?` on usize values -/
noncomputable def assertEqU (a b : ℕ) : Except Err ℕ := ((Cst.equal (s := .usize) b).check a).mapError (Err.uce _)

/-! ### src/univariate/gamma.rs -/

/-- src/univariate/gamma.rs:16-29 `Gamma(Params { alpha, beta })` -/
@[ext] structure Gamma where
  alpha : F64
  beta : F64
/-- src/univariate/gamma.rs:24-27 `Grad` -/
@[ext] structure Gamma.Grad where
  alpha : F64
  beta : F64

namespace Gamma
variable [FP]
/-- src/univariate/gamma.rs:38-40 `new` with src/params/mod.rs:176-187 `shape_params!` -/
noncomputable def new (alpha beta : F64) : Except Err Gamma := do
  let alpha ← Shape.new alpha
  let beta ← Shape.new beta
  .ok ⟨alpha, beta⟩
/-- src/univariate/gamma.rs:42-44 `new_unchecked` -/
def newUnchecked (alpha beta : F64) : Gamma := ⟨alpha, beta⟩
/-- src/univariate/gamma.rs:48 -/
noncomputable def default : Gamma := ⟨1, 1⟩
variable (d : Gamma)
/-- src/univariate/gamma.rs:65 `params` -/
def params : F64 × F64 := (d.alpha, d.beta)
/-- src/univariate/gamma.rs:67-71 `cdf` -/
noncomputable def cdf (x : F64) : Probability :=
  Probability.newUnchecked (d.alpha.gammainc (d.beta * x) / d.alpha.gamma)
/-- src/univariate/gamma.rs:83-87 `pdf` -/
noncomputable def pdf (x : F64) : F64 :=
  d.beta.powf d.alpha * x.powf (d.alpha - 1) * (-d.beta * x).exp / d.alpha.gamma
/-- src/univariate/gamma.rs:93-97 -/
noncomputable def mean : F64 := d.alpha / d.beta
/-- src/univariate/gamma.rs:99-103 -/
noncomputable def variance : F64 := d.alpha / d.beta / d.beta
/-- src/univariate/gamma.rs:105 -/
noncomputable def skewness : F64 := 2 / d.alpha.sqrt
/-- src/univariate/gamma.rs:107 -/
noncomputable def excessKurtosis : F64 := 6 / d.alpha
/-- default `kurtosis`, src/statistics.rs:27 -/
noncomputable def kurtosis : F64 := d.excessKurtosis + 3
/-- src/univariate/gamma.rs:111-116 -/
noncomputable def modes : Except Panic (List F64) :=
  if d.alpha < 1 then .error .undefined else .ok [(d.alpha - 1) / d.beta]
/-- src/univariate/gamma.rs:120-124 -/
noncomputable def shannonEntropy : F64 :=
  d.alpha - d.beta.ln + d.alpha.gamma.ln + (1 - d.alpha) * d.alpha.digamma
/-- src/univariate/gamma.rs:129, :149 `JITTER` -/
noncomputable def JITTER : F64 := F64.lit (1 / 10 ^ 9)
/-- src/univariate/gamma.rs:127-142 -/
noncomputable def logLikelihood (samples : List F64) : F64 :=
  let n := F64.ofNat samples.length
  let am1 := d.alpha - 1
  let t1 := F64.sum (samples.map fun x => am1 * (x + JITTER).ln - d.beta * (1 - x))
  t1 - n * (d.alpha * (1 / d.beta).max JITTER + d.alpha.gamma.ln)
/-- src/univariate/gamma.rs:148-164 -/
noncomputable def score (samples : List F64) : Gamma.Grad :=
  let n := F64.ofNat samples.length
  let aDigamma := d.alpha.digamma
  let r := samples.foldl (fun (acc : F64 × F64) x => (acc.1 + ((x / d.beta).max JITTER).ln, acc.2 - x)) (0, 0)
  ⟨r.1 - n * aDigamma, r.2 + n * d.alpha / d.beta⟩
/-- src/univariate/gamma.rs:170-177 `convolve` with a Gamma -/
noncomputable def convolve (rv : Gamma) : Except Err Gamma := do
  let _ ← assertEqF d.alpha rv.alpha
  .ok (newUnchecked (d.alpha + rv.alpha) d.beta)
/-- src/univariate/gamma.rs:183-190 `convolve` with an Exponential -/
noncomputable def convolveExp (rv : Exponential) : Except Err Gamma := do
  let _ ← assertEqF rv.lambda d.beta
  .ok (newUnchecked (d.alpha + 1) d.beta)
end Gamma

/-! ### src/univariate/chi_sq.rs -/

/-- src/univariate/chi_sq.rs:16-23 `ChiSq(Params { k })` -/
@[ext] structure ChiSq where
  k : ℕ

namespace ChiSq
variable [FP]
/-- src/univariate/chi_sq.rs:32 `new` -/
noncomputable def new (k : ℕ) : Except Err ChiSq := do
  let k ← DOF.newU k
  .ok ⟨k⟩
/-- src/univariate/chi_sq.rs:34 `new_unchecked` -/
def newUnchecked (k : ℕ) : ChiSq := ⟨k⟩
variable (d : ChiSq)
/-- src/univariate/chi_sq.rs:43 `params` -/
def params : ℕ := d.k
/-- src/univariate/chi_sq.rs:25-29 `get_k!` -/
noncomputable def kf : F64 := F64.ofNat d.k
/-- src/univariate/chi_sq.rs:45-50 `cdf` -/
noncomputable def cdf (x : F64) : Probability :=
  let ko2 := d.kf / 2
  Probability.newUnchecked (ko2.gammainc (x / 2) / ko2.gamma)
/-- src/univariate/chi_sq.rs:62-68 `pdf` -/
noncomputable def pdf (x : F64) : F64 :=
  let ko2 := d.kf / 2
  let norm := (2 : F64).powf ko2 * ko2.gamma
  x.powf (ko2 - 1) * (-x / 2).exp / norm
/-- src/univariate/chi_sq.rs:74 -/
noncomputable def mean : F64 := d.kf
/-- src/univariate/chi_sq.rs:76: the product is a usize product -/
noncomputable def variance (pr : Profile) : Except Panic F64 := do
  let v ← umul pr 2 d.k
  .ok (F64.ofNat v)
/-- src/univariate/chi_sq.rs:78 -/
noncomputable def skewness : F64 := (8 / d.kf).sqrt
/-- src/univariate/chi_sq.rs:80 -/
noncomputable def excessKurtosis : F64 := 12 / d.kf
/-- default `kurtosis`, src/statistics.rs:27 -/
noncomputable def kurtosis : F64 := d.excessKurtosis + 3
/-- src/univariate/chi_sq.rs:86-90 -/
noncomputable def median : F64 := d.kf * (1 - 2 / 9 / d.kf).powi 3
/-- src/univariate/chi_sq.rs:94 -/
noncomputable def modes (pr : Profile) : Except Panic (List F64) := do
  let m ← usub pr (Max.max d.k 2) 2
  .ok [F64.ofNat m]
/-- src/univariate/chi_sq.rs:98-103 -/
noncomputable def shannonEntropy : F64 :=
  let ko2 := d.kf / 2
  ko2 + (2 * ko2.gamma).ln + (1 - ko2) * ko2.digamma
/-- src/univariate/chi_sq.rs:109-116 `convolve` -/
noncomputable def convolve (pr : Profile) (rv : ChiSq) : Except Panic (Except Err ChiSq) :=
  match assertEqU d.k rv.k with
  | .error e => .ok (.error e)
  | .ok _ => do
    let k ← uadd pr d.k rv.k
    .ok (.ok (newUnchecked k))
end ChiSq

/-! ### src/univariate/chi.rs -/

/-- src/univariate/chi.rs:16-23 `Chi(Params { k })` -/
@[ext] structure Chi where
  k : ℕ

namespace Chi
variable [FP]
/-- src/univariate/chi.rs:32 `new` -/
noncomputable def new (k : ℕ) : Except Err Chi := do
  let k ← DOF.newU k
  .ok ⟨k⟩
variable (d : Chi)
/-- src/univariate/chi.rs:43 `params` -/
def params : ℕ := d.k
/-- src/univariate/chi.rs:25-29 `get_k!` -/
noncomputable def kf : F64 := F64.ofNat d.k
/-- src/univariate/chi.rs:45-47 `cdf` -/
noncomputable def cdf (x : F64) : Probability := Probability.newUnchecked ((d.kf / 2).gammainc (x * x / 2))
/-- src/univariate/chi.rs:53-59 `pdf` -/
noncomputable def pdf (x : F64) : F64 :=
  let ko2 := d.kf / 2
  let norm := (2 : F64).powf (ko2 - 1) * ko2.gamma
  x.powf (d.kf - 1) * (-x * x / 2).exp / norm
/-- src/univariate/chi.rs:65-69 -/
noncomputable def mean : F64 := (2 : F64).sqrt * ((d.kf + 1) / 2).gamma / (d.kf / 2).gamma
/-- src/univariate/chi.rs:71-76 -/
noncomputable def variance : F64 := d.kf - d.mean * d.mean
/-- src/univariate/chi.rs:78-83 -/
noncomputable def skewness : F64 := d.mean / d.variance.powf THREE_HALVES * (1 - 2 * d.variance)
/-- src/univariate/chi.rs:85-92 -/
noncomputable def excessKurtosis : F64 :=
  2 / d.variance * (1 - d.mean * d.variance.sqrt * d.skewness - d.variance)
/-- default `kurtosis`, src/statistics.rs:27 -/
noncomputable def kurtosis : F64 := d.excessKurtosis + 3
/-- src/univariate/chi.rs:98-102 -/
noncomputable def median : F64 := (d.kf * (1 - 2 / 9 / d.kf).powi 3).sqrt
/-- src/univariate/chi.rs:106-114 -/
noncomputable def modes : List F64 := if 1 ≤ d.k then [(F64.ofNat (d.k - 1)).sqrt] else []
/-- src/univariate/chi.rs:118-123 -/
noncomputable def shannonEntropy : F64 :=
  let ko2 := d.kf / 2
  ko2.gamma.ln + (d.kf - (2 : F64).ln - (d.kf - 1) * ko2.digamma)
end Chi

/-! ### src/univariate/erlang.rs -/

/-- src/univariate/erlang.rs:14-22 `Erlang(Params { k, lambda })` -/
@[ext] structure Erlang where
  k : ℕ
  lambda : F64

namespace Erlang
variable [FP]
/-- src/univariate/erlang.rs:31-33 `new` -/
noncomputable def new (k : ℕ) (lambda : F64) : Except Err Erlang := do
  let k ← Shape.newU k
  let lambda ← Rate.new lambda
  .ok ⟨k, lambda⟩
/-- src/univariate/erlang.rs:42 -/
noncomputable def default : Erlang := ⟨1, 1⟩
variable (pr : Profile) (d : Erlang)
/-- src/univariate/erlang.rs:51 `params` -/
def params : ℕ × F64 := (d.k, d.lambda)
/-- src/univariate/erlang.rs:38 `mu` -/
noncomputable def mu : F64 := 1 / d.lambda
/-- src/univariate/erlang.rs:53-57 `log_cdf` -/
noncomputable def logCdf (x : F64) : Except Panic F64 := do
  let lf ← logFactorialStirling pr d.k
  .ok (((F64.ofNat d.k).gammainc (d.lambda * x)).ln - lf)
/-- default `cdf`, src/lib.rs:132-134, through the overridden `log_cdf` -/
noncomputable def cdf (x : F64) : Except Panic Probability := do
  let l ← d.logCdf pr x
  .ok (Probability.newUnchecked l.exp)
/-- src/univariate/erlang.rs:63-69 `log_pdf` -/
noncomputable def logPdf (x : F64) : Except Panic F64 := do
  let km1 ← usub pr d.k 1
  let lf ← logFactorialStirling pr km1
  .ok (F64.ofNat d.k * d.lambda.ln + F64.ofNat km1 * x - d.lambda * x - lf)
/-- default `pdf`, src/lib.rs:253, through the overridden `log_pdf` -/
noncomputable def pdf (x : F64) : Except Panic F64 := do
  let l ← d.logPdf pr x
  .ok l.exp
/-- src/univariate/erlang.rs:75-79 -/
noncomputable def mean : F64 := F64.ofNat d.k / d.lambda
/-- src/univariate/erlang.rs:81-85 -/
noncomputable def variance : F64 := F64.ofNat d.k / d.lambda / d.lambda
/-- src/univariate/erlang.rs:87 -/
noncomputable def skewness : F64 := 2 / (F64.ofNat d.k).sqrt
/-- src/univariate/erlang.rs:89 -/
noncomputable def excessKurtosis : F64 := 6 / F64.ofNat d.k
/-- src/univariate/erlang.rs:93-97 -/
noncomputable def modes : Except Panic (List F64) := do
  let km1 ← usub pr d.k 1
  .ok [F64.ofNat km1 / d.lambda]
end Erlang

/-! ### src/univariate/inverse_gamma.rs -/

/-- src/univariate/inverse_gamma.rs:12-20 `InvGamma(Params { alpha, beta })` -/
@[ext] structure InvGamma where
  alpha : F64
  beta : F64

namespace InvGamma
variable [FP]
/-- src/univariate/inverse_gamma.rs:29-31 `new` with src/params/mod.rs:176-187 `shape_params!` -/
noncomputable def new (alpha beta : F64) : Except Err InvGamma := do
  let alpha ← Shape.new alpha
  let beta ← Shape.new beta
  .ok ⟨alpha, beta⟩
variable (d : InvGamma)
/-- src/univariate/inverse_gamma.rs:48 `params` -/
def params : F64 × F64 := (d.alpha, d.beta)
/-- src/univariate/inverse_gamma.rs:50-56 `cdf` -/
noncomputable def cdf (x : F64) : Probability :=
  Probability.newUnchecked (d.alpha.gammainc (d.beta / x) / d.alpha.gamma)
/-- src/univariate/inverse_gamma.rs:62-68 `pdf` -/
noncomputable def pdf (x : F64) : F64 :=
  d.beta.powf d.alpha * x.powf (-d.alpha - 1) * (-d.beta / x).exp / d.alpha.gamma
/-- src/univariate/inverse_gamma.rs:74-79 -/
noncomputable def mean : Except Panic F64 := if d.alpha ≤ 1 then .error .undefined else .ok (d.beta / (d.alpha - 1))
/-- src/univariate/inverse_gamma.rs:81-91 -/
noncomputable def variance : Except Panic F64 :=
  if d.alpha ≤ 2 then .error .undefined
  else
    let am1 := d.alpha - 1
    .ok (d.beta * d.beta / am1 / am1 / (d.alpha - 2))
/-- src/univariate/inverse_gamma.rs:93-98 -/
noncomputable def skewness : Except Panic F64 :=
  if d.alpha ≤ 3 then .error .undefined else .ok (4 * (d.alpha - 2).sqrt / (d.alpha - 3))
/-- src/univariate/inverse_gamma.rs:100-105 -/
noncomputable def excessKurtosis : Except Panic F64 :=
  if d.alpha ≤ 4 then .error .undefined
  else .ok ((30 * d.alpha - 66) / (d.alpha - 3) / (d.alpha - 4))
/-- src/univariate/inverse_gamma.rs:109-113 -/
noncomputable def modes : List F64 := [d.beta / (d.alpha + 1)]
/-- src/univariate/inverse_gamma.rs:117-123 -/
noncomputable def shannonEntropy : F64 :=
  d.alpha + (d.beta * d.alpha.gamma).ln - (1 + d.alpha) * d.alpha.digamma
end InvGamma
end Rstat
