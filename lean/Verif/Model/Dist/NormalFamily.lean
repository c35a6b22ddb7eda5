import Verif.Model.Normal

/-! Model of /repo/src/univariate/{levy,lognormal,folded_normal,inverse_normal}.rs (`Display`: Model/Display; the `quantile`s and
Levy's `sample` are `unimplemented!()`). Random draws of `rand_distr` are arguments of the sampling functions. -/
namespace Rstat
open Classical Consts

/-! ### src/univariate/levy.rs -/

/-- src/univariate/levy.rs:13-21 `Levy(Params { mu, c })` -/
@[ext] structure Levy where
  mu : F64
  c : F64

namespace Levy
variable [FP]
/-- src/univariate/levy.rs:30 `new` with src/params/mod.rs:162-174 `locscale_params!` -/
noncomputable def new (mu c : F64) : Except Err Levy := do
  let mu ← Loc.new mu
  let c ← Scale.new c
  .ok ⟨mu, c⟩
/-- src/univariate/levy.rs:32 `new_unchecked` -/
def newUnchecked (mu c : F64) : Levy := ⟨mu, c⟩
variable (d : Levy)
/-- src/univariate/levy.rs:39 `support`: the half line closed at the returned point -/
def support : F64 := d.mu
/-- src/univariate/levy.rs:41 `params` -/
def params : F64 × F64 := (d.mu, d.c)
/-- src/univariate/levy.rs:43-49 `cdf` -/
noncomputable def cdf (x : F64) : Probability := Probability.newUnchecked (d.c / 2 / (x - d.mu)).erfc
/-- src/univariate/levy.rs:55-62 `pdf` -/
noncomputable def pdf (x : F64) : F64 :=
  let diff := x - d.mu
  let cOver2 := d.c / 2
  (cOver2 / PI).sqrt * (-cOver2 / diff).exp / diff.powf THREE_HALVES
/-- src/univariate/levy.rs:68 -/
def mean (_ : Levy) : F64 := .pinf
/-- src/univariate/levy.rs:70 -/
def variance (_ : Levy) : F64 := .pinf
/-- src/univariate/levy.rs:72 -/
def skewness (_ : Levy) : Except Panic F64 := .error .undefined
/-- src/univariate/levy.rs:74 -/
def kurtosis (_ : Levy) : Except Panic F64 := .error .undefined
/-- the literal `1e-7`, src/univariate/levy.rs:81 and :92 -/
noncomputable def tol : F64 := F64.lit (1 / 10 ^ 7)
/-- src/univariate/levy.rs:80-87 -/
noncomputable def median : Except Panic F64 :=
  if d.mu.abs < tol then .error .unimplemented else .error .undefined
/-- src/univariate/levy.rs:91-97 -/
noncomputable def modes : Except Panic (List F64) :=
  if d.mu.abs < tol then .ok [d.c / 3] else .error .undefined
/-- src/univariate/levy.rs:101-108 -/
noncomputable def shannonEntropy : F64 :=
  let gamma := -(F64.digamma 1)
  (1 + 3 * gamma + (PI_16 * d.c * d.c).ln) / 2
end Levy

/-! ### src/univariate/lognormal.rs -/

/-- src/univariate/lognormal.rs:16-17 `LogNormal(Normal)` -/
@[ext] structure LogNormal where
  normal : UvNormal

namespace LogNormal
/-- src/univariate/lognormal.rs:26-28 `new` -/
noncomputable def new (mu sigma : F64) : Except Err LogNormal :=
  match UvNormal.new mu sigma with
  | .ok n => .ok ⟨n⟩
  | .error e => .error e
/-- src/univariate/lognormal.rs:30-32 `new_unchecked` -/
def newUnchecked (mu sigma : F64) : LogNormal := ⟨UvNormal.newUnchecked mu sigma⟩
/-- src/univariate/lognormal.rs:39-41 `From<Normal>` (and :35-37 `From<Params>`) -/
def ofNormal (n : UvNormal) : LogNormal := ⟨n⟩
variable [FP] (d : LogNormal)
/-- src/univariate/lognormal.rs:49 `params` -/
def params : UvNormalParams := d.normal.params
/-- src/univariate/lognormal.rs:53-57 `cdf` -/
noncomputable def cdf (x : F64) : Probability := d.normal.cdf x.ln
/-- src/univariate/lognormal.rs:69-73 `pdf` -/
noncomputable def pdf (x : F64) : F64 := d.normal.pdf x.ln
/-- src/univariate/lognormal.rs:79-83 -/
noncomputable def mean : F64 := (d.normal.mu + d.normal.Sigma * d.normal.Sigma / 2).exp
/-- src/univariate/lognormal.rs:85-90 -/
noncomputable def variance : F64 :=
  let sigma2 := d.normal.Sigma * d.normal.Sigma
  (sigma2.exp - 1) * (2 * d.normal.mu + sigma2).exp
/-- default `standard_deviation`, src/statistics.rs:21 -/
noncomputable def standardDeviation : F64 := d.variance.sqrt
/-- src/univariate/lognormal.rs:92-97 -/
noncomputable def skewness : F64 :=
  let sigma2 := d.normal.Sigma * d.normal.Sigma
  (sigma2.exp + 2) * (sigma2.exp - 1).sqrt
/-- src/univariate/lognormal.rs:99-104 -/
noncomputable def excessKurtosis : F64 :=
  let sigma2 := d.normal.Sigma * d.normal.Sigma
  (4 * sigma2).exp + 2 * (3 * sigma2).exp + 3 * (2 * sigma2).exp - 6
/-- default `kurtosis`, src/statistics.rs:27 -/
noncomputable def kurtosis : F64 := d.excessKurtosis + 3
/-- src/univariate/lognormal.rs:110 -/
noncomputable def median : F64 := d.normal.mu.exp
/-- src/univariate/lognormal.rs:114-118 -/
noncomputable def modes : List F64 := [(d.normal.mu - d.normal.Sigma * d.normal.Sigma).exp]
/-- src/univariate/lognormal.rs:122-126 -/
noncomputable def shannonEntropy : F64 :=
  (d.normal.Sigma * (d.normal.mu + F64.fin (1 / 2)).exp * PI_2.sqrt).log2
/-- src/univariate/lognormal.rs:130-138 -/
noncomputable def fisherInformation : Fin 2 → Fin 2 → F64 :=
  let oneOverSigma2 := 1 / d.normal.Sigma / d.normal.Sigma
  ![![oneOverSigma2, 0], ![0, oneOverSigma2 * oneOverSigma2 / 2]]
/-- src/univariate/lognormal.rs:59-65 `sample`; `rand_distr::LogNormal::new(m, s)` fails exactly for a non-finite `s`, and its
`sample` is `exp(m + s * StandardNormal)` -/
noncomputable def sample {σ : Type} (g : NormalRng σ) (s : σ) : Except Panic F64 × σ :=
  if d.standardDeviation.isFinite then let (n, s') := g.draw s; (.ok (d.mean + d.standardDeviation * n).exp, s')
  else (.error .unwrap, s)
end LogNormal

/-! ### src/univariate/folded_normal.rs -/

/-- src/univariate/folded_normal.rs:13-21 `FoldedNormal(Params { mu, sigma })` -/
@[ext] structure FoldedNormal where
  mu : F64
  sigma : F64

namespace FoldedNormal
/-- src/univariate/folded_normal.rs:30-32 `new` with src/params/mod.rs:162-174 `locscale_params!` -/
noncomputable def new (mu sigma : F64) : Except Err FoldedNormal := do
  let mu ← Loc.new mu
  let sigma ← Scale.new sigma
  .ok ⟨mu, sigma⟩
/-- src/univariate/folded_normal.rs:34-36 `new_unchecked` -/
def newUnchecked (mu sigma : F64) : FoldedNormal := ⟨mu, sigma⟩
/-- src/univariate/folded_normal.rs:38-40 `half_normal` (its argument is an already validated `Scale`) -/
noncomputable def halfNormal (scale : F64) : FoldedNormal := newUnchecked 0 scale
/-- src/univariate/folded_normal.rs:42 `standard`, also `Default` :52-54 -/
noncomputable def standard : FoldedNormal := newUnchecked 0 1
variable [FP] (d : FoldedNormal)
/-- src/univariate/folded_normal.rs:45-49 -/
noncomputable def precision : F64 := 1 / d.sigma / d.sigma
/-- src/univariate/folded_normal.rs:62 `params` -/
def params : F64 × F64 := (d.mu, d.sigma)
/-- src/univariate/folded_normal.rs:64-73 `cdf` -/
noncomputable def cdf (x : F64) : Probability :=
  let sqrt2 := (2 : F64).sqrt
  Probability.newUnchecked
    (F64.fin (1 / 2) * (((x + d.mu) / d.sigma / sqrt2).erf + ((x - d.mu) / d.sigma / sqrt2).erf))
/-- src/univariate/folded_normal.rs:75-84 `sample`; `rand_distr::Normal` as in `UvNormal.sample` -/
noncomputable def sample {σ : Type} (g : NormalRng σ) (s : σ) : Except Panic F64 × σ :=
  if d.sigma.isFinite then let (n, s') := g.draw s; (.ok (d.mu + d.sigma * n).abs, s')
  else (.error .unwrap, s)
/-- src/univariate/folded_normal.rs:88-96 `pdf` -/
noncomputable def pdf (x : F64) : F64 :=
  let norm := PI_2.sqrt * d.sigma
  let zPos := (x + d.mu) / d.sigma
  let zNeg := (x - d.mu) / d.sigma
  (-zPos * zPos / 2).exp / norm + (-zNeg * zNeg / 2).exp / norm
/-- src/univariate/folded_normal.rs:102-109 -/
noncomputable def mean : F64 :=
  let z := d.mu / d.sigma / (2 : F64).sqrt
  d.sigma * TWO_OVER_PI.sqrt * (-z * z).exp + d.mu * z.erf
/-- src/univariate/folded_normal.rs:111-116 -/
noncomputable def variance : F64 :=
  let mean := d.mean
  d.mu * d.mu + d.sigma * d.sigma - mean * mean
/-- src/univariate/folded_normal.rs:118 -/
def skewness (_ : FoldedNormal) : Except Panic F64 := .error .unimplemented
/-- src/univariate/folded_normal.rs:120 -/
def kurtosis (_ : FoldedNormal) : Except Panic F64 := .error .unimplemented
/-- src/univariate/folded_normal.rs:122 -/
def excessKurtosis (_ : FoldedNormal) : Except Panic F64 := .error .unimplemented
/-- src/univariate/folded_normal.rs:126-134 -/
noncomputable def modes : List F64 := if d.mu < d.sigma then [0] else [d.mu]
end FoldedNormal

/-! ### src/univariate/inverse_normal.rs -/

/-- src/univariate/inverse_normal.rs:26-29 `InvNormal { params: { mu, lambda }, std_norm }` -/
@[ext] structure InvNormal where
  mu : F64
  lambda : F64
  stdNorm : UvNormal

namespace InvNormal
/-- src/univariate/inverse_normal.rs:39-44 `new` with src/params/mod.rs:122 `params!` -/
noncomputable def new (mu lambda : F64) : Except Err InvNormal := do
  let mu ← Shape.new mu
  let lambda ← Shape.new lambda
  .ok ⟨mu, lambda, UvNormal.standard⟩
/-- src/univariate/inverse_normal.rs:46-51 `new_unchecked` -/
noncomputable def newUnchecked (mu lambda : F64) : InvNormal := ⟨mu, lambda, UvNormal.standard⟩
/-- src/univariate/inverse_normal.rs:54-61 `From<Params>` -/
noncomputable def ofParams (p : F64 × F64) : InvNormal := ⟨p.1, p.2, UvNormal.newUnchecked 0 1⟩
variable [FP] (d : InvNormal)
/-- src/univariate/inverse_normal.rs:69 `params` -/
def params : F64 × F64 := (d.mu, d.lambda)
/-- src/univariate/inverse_normal.rs:71-82 `cdf`: the same argument is passed to both normal probabilities -/
noncomputable def cdf (x : F64) : Probability :=
  let xom := x / d.mu
  let loxSqrt := (d.lambda / x).sqrt
  let inner := loxSqrt * (xom - 1)
  let term1 := (d.stdNorm.cdf inner).unwrap
  let term2 := (2 * d.lambda / d.mu).exp * (d.stdNorm.cdf inner).unwrap
  Probability.newUnchecked (term1 + term2)
/-- src/univariate/inverse_normal.rs:87-100 the value returned by `sample` for the normal variate `nu` and the uniform variate `z` -/
noncomputable def sampleFrom (nu z : F64) : F64 :=
  let y := nu * nu
  let x := d.mu + d.mu * d.mu * y / 2 / d.lambda
    - d.mu / 2 / d.lambda * (4 * d.mu * d.lambda * y + d.mu * d.mu * y * y).sqrt
  if z < d.mu / (d.mu + x) then x else d.mu * d.mu / x
/-- src/univariate/inverse_normal.rs:84-100 `sample`: first a standard normal variate, then a uniform one
(src/univariate/uniform.rs:133-139, `rand_distr::Uniform::new_inclusive(0, 1)`, an abstract draw `u`) -/
noncomputable def sample {σ : Type} (g : NormalRng σ) (u : σ → F64 × σ) (s : σ) : Except Panic F64 × σ :=
  match d.stdNorm.sample g s with
  | (.ok nu, s1) => (.ok (d.sampleFrom nu (u s1).1), (u s1).2)
  | (.error e, s1) => (.error e, s1)
/-- src/univariate/inverse_normal.rs:104-112 `pdf` -/
noncomputable def pdf (x : F64) : F64 :=
  let z := (d.lambda / PI_2 / x / x / x).sqrt
  let diff := x - d.mu
  let exponent := (-d.lambda * diff * diff) / 2 / d.mu / d.mu / x
  z * exponent.exp
/-- src/univariate/inverse_normal.rs:118 -/
def mean : F64 := d.mu
/-- src/univariate/inverse_normal.rs:120-124 -/
noncomputable def variance : F64 := d.mu * d.mu * d.mu / d.lambda
/-- src/univariate/inverse_normal.rs:126-130 -/
noncomputable def skewness : F64 := 3 * (d.mu / d.lambda).sqrt
/-- src/univariate/inverse_normal.rs:132-136 -/
noncomputable def excessKurtosis : F64 := 16 * d.mu / d.lambda
/-- default `kurtosis`, src/statistics.rs:27 -/
noncomputable def kurtosis : F64 := d.excessKurtosis + 3
/-- src/univariate/inverse_normal.rs:140-147 -/
noncomputable def modes : List F64 :=
  let term1 := (1 + 9 * d.mu * d.mu / 4 / d.lambda / d.lambda).sqrt
  let term2 := 3 * d.mu / 2 / d.lambda
  [d.mu * (term1 - term2)]
/-- src/univariate/inverse_normal.rs:151 -/
noncomputable def shannonEntropy : F64 := (PI_E_2 * d.variance).ln / 2
end InvNormal
end Rstat
