import Verif.Model.Traits
import Verif.Model.Consts

/-! Model of /repo/src/normal/{univariate,bivariate,paired}.rs. `[f64; 2]` is `Fin 2 → F64`.
Supports are `Reals` (constant) and `cdf` of the 2-d laws is `unimplemented!()`; `Display` is in Model/Display. -/
namespace Rstat
open Classical Consts

/-- a generator of standard normal draws: `rng.sample(rand_distr::StandardNormal)` on RNG state `σ` -/
structure NormalRng (σ : Type) where
  draw : σ → F64 × σ

/-- src/normal/mod.rs:195-201 `Grad` -/
@[ext] structure NGrad (M S : Type) where
  mu : M
  Sigma : S

/-! ### univariate -/

/-- src/normal/mod.rs:181-187 `Params<f64, f64>` -/
@[ext] structure UvNormalParams where
  mu : F64
  Sigma : F64
/-- src/normal/univariate.rs:49 `UvNormal`, a wrapper of its parameters -/
abbrev UvNormal := UvNormalParams

namespace UvNormal
/-- src/normal/univariate.rs:22-27 and :56-58 `new` -/
noncomputable def new (mu sigma2 : F64) : Except Err UvNormal := do
  let mu ← Loc.new mu
  let S ← Covariance.isotropic sigma2
  .ok ⟨mu, S⟩
/-- src/normal/univariate.rs:60-65 `new_unchecked` -/
def newUnchecked (mu sigma2 : F64) : UvNormal := ⟨mu, sigma2⟩
/-- src/normal/univariate.rs:67 `standard` -/
noncomputable def standard : UvNormal := newUnchecked 0 1
/-- src/normal/univariate.rs:89 `params` -/
def params (d : UvNormal) : UvNormalParams := d

/-- src/normal/univariate.rs:35-44 -/
noncomputable def gradMul [FP] (g : NGrad F64 F64) (sf : F64) : NGrad F64 F64 := ⟨g.mu * sf, g.Sigma * sf⟩

variable [FP] (d : UvNormal)
/-- src/normal/univariate.rs:70-74 `z` -/
noncomputable def z (x : F64) : F64 := (x - d.mu) / d.Sigma.sqrt
/-- src/normal/univariate.rs:77 `precision` -/
noncomputable def precision : F64 := 1 / d.Sigma
/-- src/normal/univariate.rs:80 `width` -/
noncomputable def width : F64 := 2 * d.precision
/-- src/normal/univariate.rs:91-105 `cdf` -/
noncomputable def cdf (x : F64) : Probability :=
  Probability.newUnchecked (match x with
    | .ninf => 0
    | .pinf => 1
    | x => (d.z x).norm)
/-- src/normal/univariate.rs:107-113 `sample`; `rand_distr::Normal::new(mu, sd)` fails exactly for a non-finite `sd`, and
its `sample` is `mu + sd * StandardNormal` -/
noncomputable def sample {σ : Type} (g : NormalRng σ) (s : σ) : Except Panic F64 × σ :=
  if d.Sigma.sqrt.isFinite then let (n, s') := g.draw s; (.ok (d.mu + d.Sigma.sqrt * n), s')
  else (.error .unwrap, s)
/-- src/normal/univariate.rs:117-122 `pdf` -/
noncomputable def pdf (x : F64) : F64 :=
  let z := d.z x
  let norm := PI_2.sqrt * d.Sigma.sqrt
  (-z * z / 2).exp / norm
/-- src/normal/univariate.rs:128 -/
def mean : F64 := d.mu
/-- src/normal/univariate.rs:130 -/
def variance : F64 := d.Sigma
/-- src/normal/univariate.rs:132 -/
noncomputable def skewness : F64 := 0
/-- src/normal/univariate.rs:134 -/
noncomputable def kurtosis : F64 := 0
/-- src/normal/univariate.rs:136 -/
noncomputable def excessKurtosis : F64 := -3
/-- src/normal/univariate.rs:140-146 `quantile` -/
noncomputable def quantile (p : Probability) : F64 := d.mu + d.Sigma.sqrt * p.val.normInv
/-- src/normal/univariate.rs:148 -/
def median : F64 := d.mu
/-- src/normal/univariate.rs:152 -/
def modes : List F64 := [d.mu]
/-- src/normal/univariate.rs:156 -/
noncomputable def shannonEntropy : F64 := (PI_E_2 * d.Sigma).ln / 2
/-- src/normal/univariate.rs:160-167 -/
noncomputable def fisherInformation : Fin 2 → Fin 2 → F64 :=
  let precision := d.precision
  ![![precision, 0], ![0, precision * precision / 2]]
/-- src/normal/univariate.rs:171-182 -/
noncomputable def logLikelihood (xs : List F64) : F64 :=
  let ls2 := d.Sigma.ln
  let no2 := F64.ofNat xs.length / 2;
  -no2 / 2 * (PI_2.ln + ls2) - F64.sum (xs.map fun x => (x - d.mu).powi 2 / 2 / d.Sigma)
/-- src/normal/univariate.rs:188-202 -/
noncomputable def score (xs : List F64) : NGrad F64 F64 :=
  let n := F64.ofNat xs.length
  let r := xs.foldl (fun acc x => let dd := x - d.mu; (acc.1 + dd, acc.2 + dd * dd)) ((0 : F64), (0 : F64))
  ⟨r.1 / d.Sigma, (r.2 / d.Sigma - n) / d.Sigma.sqrt⟩
/-- src/normal/univariate.rs:206-216 -/
noncomputable def fitMle (xs : List F64) : Except Err UvNormal :=
  let n := F64.ofNat xs.length
  let mean := xs.foldl (fun acc x => acc + x) 0 / n
  let var := (xs.map fun x => x - mean).foldl (fun acc r => acc + r * r) 0 / n
  new mean var
/-- src/normal/univariate.rs:222-227 -/
noncomputable def convolve (d e : UvNormal) : Except Err UvNormal :=
  .ok (newUnchecked (d.mu + e.mu) (variance d + variance e))
end UvNormal

/-! ### bivariate -/

/-- src/normal/bivariate.rs:18 `Params<[f64; 2], ([f64; 2], f64)>` and :47-48 `BvNormal` -/
@[ext] structure BvNormal where
  mu : Fin 2 → F64
  S : Fin 2 → F64
  rho : F64

namespace BvNormal
/-- src/normal/bivariate.rs:21-26, :56-58 -/
noncomputable def new (mu S : Fin 2 → F64) (rho : F64) : Except Err BvNormal :=
  match Covariance.bivariate S rho with
  | .error e => .error e
  | .ok (S, rho) => .ok ⟨mu, S, rho⟩
/-- src/normal/bivariate.rs:60-65 -/
def newUnchecked (mu S : Fin 2 → F64) (rho : F64) : BvNormal := ⟨mu, S, rho⟩
/-- src/normal/bivariate.rs:67-69 -/
noncomputable def independent (mu S : Fin 2 → F64) : Except Err BvNormal := new mu S 0
/-- src/normal/bivariate.rs:71-73 -/
noncomputable def independentUnchecked (mu S : Fin 2 → F64) : BvNormal := newUnchecked mu S 0
/-- src/normal/bivariate.rs:75-77 -/
noncomputable def isotropic (mu : Fin 2 → F64) (s2 : F64) : Except Err BvNormal := independent mu ![s2, s2]
/-- src/normal/bivariate.rs:79-81 -/
noncomputable def isotropicUnchecked (mu : Fin 2 → F64) (s2 : F64) : BvNormal := independentUnchecked mu ![s2, s2]
/-- src/normal/bivariate.rs:83, also `Default` :101-103 -/
noncomputable def standard : BvNormal := isotropicUnchecked ![0, 0] 1
/-- src/normal/bivariate.rs:37-42: the second variance component is *not* multiplied -/
noncomputable def gradMul [FP] (g : NGrad (Fin 2 → F64) ((Fin 2 → F64) × F64)) (sf : F64) :
    NGrad (Fin 2 → F64) ((Fin 2 → F64) × F64) :=
  ⟨![g.mu 0 * sf, g.mu 1 * sf], (![g.Sigma.1 0 * sf, g.Sigma.1 1], g.Sigma.2 * sf)⟩

variable [FP] (d : BvNormal)
/-- src/normal/bivariate.rs:86-98 -/
noncomputable def z (x : Fin 2 → F64) : F64 :=
  let diff0 := x 0 - d.mu 0
  let diff1 := x 1 - d.mu 1
  let qTerm := diff0.powi 2 / d.S 0 - 2 * d.rho * diff0 * diff1 / (d.S 0).sqrt / (d.S 1).sqrt + diff1.powi 2 / d.S 1
  let rhoTerm := 1 - d.rho * d.rho
  qTerm / rhoTerm
/-- src/normal/bivariate.rs:119-128 -/
noncomputable def sample {σ : Type} (g : NormalRng σ) (s : σ) : (Fin 2 → F64) × σ :=
  let (z1, s1) := g.draw s
  let (z2, s2) := g.draw s1
  (![d.mu 0 + (d.S 0).sqrt * z1,
     d.mu 1 + (d.S 1).sqrt * (z1 * d.rho + z2 * (1 - d.rho * d.rho).sqrt)], s2)
/-- src/normal/bivariate.rs:132-139 -/
noncomputable def pdf (x : Fin 2 → F64) : F64 :=
  let z := d.z x
  let norm := PI_2 * (d.S 0).sqrt * (d.S 1).sqrt * (1 - d.rho * d.rho).sqrt
  (-z / 2).exp / norm
/-- src/normal/bivariate.rs:145 -/
def mean : Fin 2 → F64 := d.mu
/-- src/normal/bivariate.rs:147-155 -/
noncomputable def covariance : Fin 2 → Fin 2 → F64 :=
  let cross := (d.S 0).sqrt * (d.S 1).sqrt
  ![![d.S 0, d.rho * cross], ![d.rho * cross, d.S 1]]
/-- src/normal/bivariate.rs:157 -/
def variance : Fin 2 → F64 := d.S
/-- src/normal/bivariate.rs:159-163 -/
noncomputable def correlation : Fin 2 → Fin 2 → F64 := ![![1, d.rho], ![d.rho, 1]]
/-- src/normal/bivariate.rs:167 -/
def modes : List (Fin 2 → F64) := [d.mu]
/-- src/normal/bivariate.rs:171-175 -/
noncomputable def shannonEntropy : F64 := 1 + PI_2.ln + F64.fin (1 / 2) * d.S 0 * d.S 1 * (1 - d.rho)
end BvNormal

/-! ### paired -/

/-- src/normal/paired.rs:19 `Params<[f64; 2], [f64; 2]>` and :35-36 `PairedNormal` -/
@[ext] structure PairedNormal where
  mu : Fin 2 → F64
  S : Fin 2 → F64

namespace PairedNormal
/-- src/normal/paired.rs:22-27, :43-45 -/
noncomputable def new (mu S : Fin 2 → F64) : Except Err PairedNormal :=
  match Covariance.diagonal S with
  | .error e => .error e
  | .ok S => .ok ⟨mu, S⟩
/-- src/normal/paired.rs:47-52 -/
def newUnchecked (mu S : Fin 2 → F64) : PairedNormal := ⟨mu, S⟩
/-- src/normal/paired.rs:54-56 -/
noncomputable def isotropic (mu : Fin 2 → F64) (s2 : F64) : Except Err PairedNormal := new mu ![s2, s2]
/-- src/normal/paired.rs:62 -/
noncomputable def standard : PairedNormal := newUnchecked ![0, 0] ![1, 1]

variable [FP] (d : PairedNormal)
/-- src/normal/paired.rs:65-72 -/
noncomputable def z (x : Fin 2 → F64) : F64 :=
  let diff0 := x 0 - d.mu 0
  let diff1 := x 1 - d.mu 1
  diff0.powi 2 / d.S 0 + diff1.powi 2 / d.S 1
/-- src/normal/paired.rs:93-102 -/
noncomputable def sample {σ : Type} (g : NormalRng σ) (s : σ) : (Fin 2 → F64) × σ :=
  let (z1, s1) := g.draw s
  let (z2, s2) := g.draw s1
  (![d.mu 0 + (d.S 0).sqrt * z1, d.mu 1 + (d.S 1).sqrt * z2], s2)
/-- src/normal/paired.rs:106-113 -/
noncomputable def pdf (x : Fin 2 → F64) : F64 :=
  let z := d.z x
  let norm := PI_2 * (d.S 0).sqrt * (d.S 1).sqrt
  (-z / 2).exp / norm
/-- src/normal/paired.rs:119 -/
def mean : Fin 2 → F64 := d.mu
/-- src/normal/paired.rs:121-128 -/
noncomputable def covariance : Fin 2 → Fin 2 → F64 := ![![d.S 0, 0], ![0, d.S 1]]
/-- src/normal/paired.rs:130 -/
def variance : Fin 2 → F64 := d.S
/-- src/normal/paired.rs:132 -/
noncomputable def correlation (_ : PairedNormal) : Fin 2 → Fin 2 → F64 := ![![1, 0], ![0, 1]]
/-- src/normal/paired.rs:136 -/
def modes : List (Fin 2 → F64) := [d.mu]
/-- src/normal/paired.rs:140-144 -/
noncomputable def shannonEntropy : F64 := 1 + PI_2.ln + F64.fin (1 / 2) * d.S 0 * d.S 1
/-- src/normal/paired.rs:148-157 -/
noncomputable def logLikelihood (xs : List (Fin 2 → F64)) : F64 :=
  let lnDet := (d.S 0 * d.S 1).ln
  let no2 := F64.ofNat xs.length / 2;
  -no2 * (lnDet + 2 * PI_2.ln + F64.sum (xs.map fun x => (x 0 - d.mu 0).powi 2 / d.S 0 + (x 1 - d.mu 1).powi 2 / d.S 1))
/-- src/normal/paired.rs:163-183 -/
noncomputable def score (xs : List (Fin 2 → F64)) : NGrad (Fin 2 → F64) (Fin 2 → F64) :=
  let n := F64.ofNat xs.length
  let r := xs.foldl (fun (acc : (F64 × F64) × (F64 × F64)) x =>
    let d0 := x 0 - d.mu 0
    let d1 := x 1 - d.mu 1
    ((acc.1.1 + d0, acc.1.2 + d1), (acc.2.1 + d0 * d0, acc.2.2 + d1 * d1))) ((0, 0), (0, 0))
  ⟨![r.1.1 / d.S 0, r.1.2 / d.S 1],
   ![(r.2.1 / d.S 0 - n) / (d.S 0).sqrt, (r.2.2 / d.S 1 - n) / (d.S 1).sqrt]⟩
end PairedNormal

end Rstat
