import Verif.Model.Normal

/-! Model of /repo/src/normal/{multivariate,linalg}.rs. `[f64; N]` is `Fin n → F64`, `[[f64; N]; N]` (row-major) is
`Fin n → Fin n → F64`. BLAS level-2/3 calls are their defining sums; the two LAPACK factorisations are an interface
(class `Lapack`) whose contract is stated in `Lemmas/Lapack.lean`. `cdf` is `todo!()` in the source for all three laws and
`support` is constant; neither is modelled. `N as i32` is taken as `N` (an `[[f64; N]; N]` with `N ≥ 2^31` does not exist). -/
namespace Rstat
open Classical Consts

/-- the LAPACK routines called through /repo/src/normal/linalg.rs, in row-major view. `potrf A` is the content of the array
after `dpotrf('U', …)` (only its lower triangle is specified); `trtri A` after `dtrtri('U', 'N', …)`. -/
class Lapack where
  potrf : {n : ℕ} → (Fin n → Fin n → F64) → (Fin n → Fin n → F64)
  trtri : {n : ℕ} → (Fin n → Fin n → F64) → (Fin n → Fin n → F64)

/-- src/normal/linalg.rs:3-19 `cholesky`: factor, then zero the strict upper triangle -/
noncomputable def cholesky [Lapack] {n : ℕ} (A : Fin n → Fin n → F64) : Fin n → Fin n → F64 :=
  fun i j => if i < j then 0 else Lapack.potrf A i j
/-- src/normal/linalg.rs:21-34 `inverse_lt` -/
def inverseLt [Lapack] {n : ℕ} (A : Fin n → Fin n → F64) : Fin n → Fin n → F64 := Lapack.trtri A
/-- src/normal/linalg.rs:36-49 `mm_square`: `dgemm('N','T')` on the column-major view `Aᵀ` computes `Aᵀ A` -/
noncomputable def mmSquare [FP] {n : ℕ} (A : Fin n → Fin n → F64) : Fin n → Fin n → F64 :=
  fun i j => F64.sum ((List.finRange n).map fun k => A k i * A k j)
/-- src/normal/linalg.rs:51-62 `mv_mult`: `dtrmv('U','T','N')` on the column-major view reads only the (row-major) lower
triangle of `A` -/
noncomputable def mvMult [FP] {n : ℕ} (A : Fin n → Fin n → F64) (v : Fin n → F64) : Fin n → F64 :=
  fun i => F64.sum (((List.finRange n).filter fun j => j ≤ i).map fun j => A i j * v j)

namespace NormalRng
/-- RNG state after `k` standard-normal draws -/
def stateAt {σ : Type} (g : NormalRng σ) (s : σ) : ℕ → σ
  | 0 => s
  | k + 1 => (g.draw (stateAt g s k)).2
/-- the `k`-th of a sequence of standard-normal draws -/
def nth {σ : Type} (g : NormalRng σ) (s : σ) (k : ℕ) : F64 := (g.draw (g.stateAt s k)).1
end NormalRng

/-! ### general covariance -/

/-- src/normal/multivariate.rs:21-28 `MvNormal` -/
@[ext] structure MvNormal (n : ℕ) where
  mu : Fin n → F64
  Sigma : Fin n → Fin n → F64
  det : F64
  lt : Fin n → Fin n → F64
  precision : Fin n → Fin n → F64

/-- src/normal/multivariate.rs:40-45 `shannon_entropy`, shared by the three laws -/
noncomputable def mvEntropy [FP] (n : ℕ) (det : F64) : F64 :=
  F64.lit 0.5 * (F64.ofNat n * (1 + PI_2.ln) + det.ln)
/-- src/normal/multivariate.rs:200-206, :402-408, :643-649 `pdf`, shared by the three laws: `z` is the squared distance -/
noncomputable def mvPdf [FP] (n : ℕ) (z det : F64) : F64 :=
  let norm := (PI_2.powi (n : ℤ) * det).sqrt
  (-z / 2).exp / norm

namespace MvNormal
variable {n : ℕ}
/-- src/normal/multivariate.rs:136-164 `new_unchecked`, also `From<Params>` :167-171 -/
noncomputable def newUnchecked [FP] [Lapack] (mu : Fin n → F64) (S : Fin n → Fin n → F64) : MvNormal n :=
  let lt := cholesky S
  { mu := mu, Sigma := S, lt := lt
    det := (F64.prod ((List.finRange n).map fun i => lt i i)).powi 2
    precision := mmSquare (inverseLt lt) }
/-- src/normal/multivariate.rs:66-75 `Params::multivariate` and :112-120 `new` -/
noncomputable def new [FP] [Lapack] (mu : Fin n → F64) (S : Fin n → Fin n → F64) : Except Err (MvNormal n) := do
  let S ← Covariance.matrix S
  .ok (newUnchecked mu S)
/-- src/normal/multivariate.rs:82-89 `Grad * f64` -/
noncomputable def gradMul [FP] (g : NGrad (Fin n → F64) (Fin n → Fin n → F64)) (sf : F64) :
    NGrad (Fin n → F64) (Fin n → Fin n → F64) := ⟨fun i => g.mu i * sf, fun i j => g.Sigma i j * sf⟩
variable [FP] (d : MvNormal n)
/-- src/normal/multivariate.rs:179 `params` -/
def params : (Fin n → F64) × (Fin n → Fin n → F64) := (d.mu, d.Sigma)
/-- src/normal/multivariate.rs:34 -/
def modes : List (Fin n → F64) := [d.mu]
/-- src/normal/multivariate.rs:40-45 -/
noncomputable def shannonEntropy : F64 := mvEntropy n d.det
/-- src/normal/multivariate.rs:183-197 `sample` -/
noncomputable def sample {σ : Type} (g : NormalRng σ) (s : σ) : (Fin n → F64) × σ :=
  let Az := mvMult d.lt fun i => g.nth s i
  (fun i => Az i + d.mu i, g.stateAt s n)
/-- src/normal/multivariate.rs:212 -/
def mean : Fin n → F64 := d.mu
/-- src/normal/multivariate.rs:214 -/
def covariance : Fin n → Fin n → F64 := d.Sigma
/-- src/normal/multivariate.rs:216-224 -/
def variance : Fin n → F64 := fun i => d.Sigma i i
/-- src/normal/multivariate.rs:245-261 `d_mahalanobis_squared` -/
noncomputable def dMahalanobisSquared (x : Fin n → F64) : F64 :=
  let z := fun i => d.mu i - x i
  let Az := mvMult d.precision z
  F64.sum ((List.finRange n).map fun i => z i * Az i)
/-- src/normal/multivariate.rs:201-206 `pdf` -/
noncomputable def pdf (x : Fin n → F64) : F64 := mvPdf n (d.dMahalanobisSquared x) d.det
end MvNormal

/-! ### diagonal covariance -/

/-- src/normal/multivariate.rs:311 `DiagonalNormal` -/
@[ext] structure DiagNormal (n : ℕ) where
  mu : Fin n → F64
  Sigma : Fin n → F64
  det : F64
  lt : Fin n → F64
  precision : Fin n → F64

namespace DiagNormal
variable {n : ℕ}
/-- src/normal/multivariate.rs:354-370 `diagonal_unchecked`: `Sigma_lt` is `Sigma` itself; also `From<Params>` :373-377 -/
noncomputable def newUnchecked [FP] (mu S : Fin n → F64) : DiagNormal n :=
  { mu := mu, Sigma := S, lt := S
    det := F64.prod ((List.finRange n).map S)
    precision := fun i => 1 / S i }
/-- src/normal/multivariate.rs:279-293 `Params::diagonal` and :331-339 `diagonal` (the length check compares `mu` with
itself) -/
noncomputable def new [FP] (mu S : Fin n → F64) : Except Err (DiagNormal n) := do
  let S ← Covariance.diagonal S
  .ok (newUnchecked mu S)
/-- src/normal/multivariate.rs:300-307 `Grad * f64` -/
noncomputable def gradMul [FP] (g : NGrad (Fin n → F64) (Fin n → F64)) (sf : F64) : NGrad (Fin n → F64) (Fin n → F64) :=
  ⟨fun i => g.mu i * sf, fun i => g.Sigma i * sf⟩
variable [FP] (d : DiagNormal n)
/-- src/normal/multivariate.rs:385 `params` -/
def params : (Fin n → F64) × (Fin n → F64) := (d.mu, d.Sigma)
/-- src/normal/multivariate.rs:34 -/
def modes : List (Fin n → F64) := [d.mu]
/-- src/normal/multivariate.rs:40-45 -/
noncomputable def shannonEntropy : F64 := mvEntropy n d.det
/-- src/normal/multivariate.rs:389-399 `sample` -/
noncomputable def sample {σ : Type} (g : NormalRng σ) (s : σ) : (Fin n → F64) × σ :=
  (fun i => d.mu i + d.lt i * g.nth s i, g.stateAt s n)
/-- src/normal/multivariate.rs:414 -/
def mean : Fin n → F64 := d.mu
/-- src/normal/multivariate.rs:416-424 -/
noncomputable def covariance : Fin n → Fin n → F64 := fun i j => if i = j then d.Sigma i else 0
/-- src/normal/multivariate.rs:426 -/
def variance : Fin n → F64 := d.Sigma
/-- src/normal/multivariate.rs:430-437 `d_mahalanobis_squared` -/
noncomputable def dMahalanobisSquared (x : Fin n → F64) : F64 :=
  F64.sum ((List.finRange n).map fun i => (x i - d.mu i) * d.precision i * d.precision i)
/-- src/normal/multivariate.rs:403-408 `pdf` -/
noncomputable def pdf (x : Fin n → F64) : F64 := mvPdf n (d.dMahalanobisSquared x) d.det
end DiagNormal

/-! ### isotropic covariance -/

/-- src/normal/multivariate.rs:498 `IsotropicNormal` -/
@[ext] structure IsoNormal (n : ℕ) where
  mu : Fin n → F64
  Sigma : F64
  det : F64
  lt : F64
  precision : F64

namespace IsoNormal
variable {n : ℕ}
/-- src/normal/multivariate.rs:531-543 `isotropic_unchecked`, also `From<Params>` :614-618 -/
noncomputable def newUnchecked [FP] (mu : Fin n → F64) (S : F64) : IsoNormal n :=
  { mu := mu, Sigma := S, lt := S, det := S.powi (n : ℤ), precision := 1 / S }
/-- src/normal/multivariate.rs:454-459 `Params::isotropic` and :515-519 `isotropic` -/
noncomputable def new [FP] (mu : Fin n → F64) (S : F64) : Except Err (IsoNormal n) := do
  let S ← Covariance.isotropic S
  .ok (newUnchecked mu S)
/-- src/normal/multivariate.rs:468-472 `Params::homogeneous` (`Natural.check(N)?` first) and :559-563 `homogeneous` -/
noncomputable def homogeneous [FP] (n : ℕ) (mu S : F64) : Except Err (IsoNormal n) := do
  let _ ← ((Cst.naturalU).check n).mapError (Err.uce (.sc .usize))
  new (fun _ => mu) S
/-- src/normal/multivariate.rs:575-577 -/
noncomputable def homogeneousUnchecked [FP] (n : ℕ) (mu S : F64) : IsoNormal n := newUnchecked (fun _ => mu) S
/-- src/normal/multivariate.rs:480 and :593-597 `standard` -/
noncomputable def standard [FP] (n : ℕ) : Except Err (IsoNormal n) := homogeneous n 0 1
/-- src/normal/multivariate.rs:609-611 -/
noncomputable def standardUnchecked [FP] (n : ℕ) : IsoNormal n := homogeneousUnchecked n 0 1
/-- src/normal/multivariate.rs:487-494 `Grad * f64` -/
noncomputable def gradMul [FP] (g : NGrad (Fin n → F64) F64) (sf : F64) : NGrad (Fin n → F64) F64 :=
  ⟨fun i => g.mu i * sf, g.Sigma * sf⟩
variable [FP] (d : IsoNormal n)
/-- src/normal/multivariate.rs:626 `params` -/
def params : (Fin n → F64) × F64 := (d.mu, d.Sigma)
/-- src/normal/multivariate.rs:34 -/
def modes : List (Fin n → F64) := [d.mu]
/-- src/normal/multivariate.rs:40-45 -/
noncomputable def shannonEntropy : F64 := mvEntropy n d.det
/-- src/normal/multivariate.rs:630-640 `sample` -/
noncomputable def sample {σ : Type} (g : NormalRng σ) (s : σ) : (Fin n → F64) × σ :=
  (fun i => d.mu i + d.lt * g.nth s i, g.stateAt s n)
/-- src/normal/multivariate.rs:655 -/
def mean : Fin n → F64 := d.mu
/-- src/normal/multivariate.rs:657-665 -/
noncomputable def covariance : Fin n → Fin n → F64 := fun i j => if i = j then d.Sigma else 0
/-- src/normal/multivariate.rs:667-669 -/
def variance : Fin n → F64 := fun _ => d.Sigma
/-- src/normal/multivariate.rs:673-678 `d_mahalanobis_squared` -/
noncomputable def dMahalanobisSquared (x : Fin n → F64) : F64 :=
  F64.sum ((List.finRange n).map fun i => (x i - d.mu i) * d.precision * d.precision)
/-- src/normal/multivariate.rs:644-649 `pdf` -/
noncomputable def pdf (x : Fin n → F64) : F64 := mvPdf n (d.dMahalanobisSquared x) d.det
end IsoNormal

end Rstat
