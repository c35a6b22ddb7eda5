import Verif.Model.MvNormal
import Verif.Model.Dist.GammaFamily

/-! Model of /repo/src/multivariate/{dirichlet,multinomial,lognormal}.rs. `[f64; N]` is `Fin N → F64`. `Display` is in Model/Display;
`cdf` is `todo!()`/`unimplemented!()` in the three files, and so is `sample` of the multinomial. -/
namespace Rstat
open Classical Consts

/-! ### src/multivariate/dirichlet.rs -/

/-- a source of Gamma variates: `rng.sample(rand_distr::Gamma::new(shape, scale).unwrap())` on RNG state `σ` -/
structure GammaRng (σ : Type) where
  draw : F64 → F64 → σ → F64 × σ
/-- RNG state after the draws `0, …, k-1` with shapes `a` and scale 1 -/
noncomputable def GammaRng.stateAt {σ : Type} {n : ℕ} (g : GammaRng σ) (a : Fin n → F64) (s : σ) : ℕ → σ
  | 0 => s
  | k + 1 => if h : k < n then (g.draw (a ⟨k, h⟩) 1 (stateAt g a s k)).2 else stateAt g a s k
/-- the `i`-th draw -/
noncomputable def GammaRng.nth {σ : Type} {n : ℕ} (g : GammaRng σ) (a : Fin n → F64) (s : σ) (i : Fin n) : F64 :=
  (g.draw (a i) 1 (g.stateAt a s i)).1

/-- src/multivariate/dirichlet.rs:16-22 `Dirichlet` -/
@[ext] structure Dirichlet (n : ℕ) where
  alphas : Fin n → F64
  alpha0 : F64
  lnBetaAlphas : F64
  alphasNormed : Fin n → F64

namespace Dirichlet
variable {n : ℕ}
/-- src/multivariate/dirichlet.rs:31-45 `new_unchecked`, also `From<Concentrations>` :48-50 -/
noncomputable def newUnchecked [FP] (alphas : Fin n → F64) : Dirichlet n :=
  let alpha0 := F64.sum (List.ofFn alphas)
  { alphas := alphas, alpha0 := alpha0
    lnBetaAlphas := (List.ofFn alphas).foldl (fun acc a => acc + a.loggamma) (-alpha0.loggamma)
    alphasNormed := fun i => alphas i / alpha0 }
/-- src/multivariate/dirichlet.rs:25-29 `new` -/
noncomputable def new [FP] (alphas : Fin n → F64) : Except Err (Dirichlet n) := do
  let a ← Concentrations.new alphas
  .ok (newUnchecked a)
variable (d : Dirichlet n)
/-- src/multivariate/dirichlet.rs:58 `params` -/
def params : Fin n → F64 := d.alphas
/-- src/multivariate/dirichlet.rs:62-81 `sample`: every draw is divided by the sum of the *parameters*. `rand_distr::Gamma::new`
fails unless its shape is positive; the generator state left behind by such a panic is not tracked. -/
noncomputable def sample [FP] {σ : Type} (g : GammaRng σ) (s : σ) : Except Panic (Fin n → F64) × σ :=
  if ∀ i, 0 < d.alphas i then
    (.ok fun i => g.nth d.alphas s i / F64.sum (List.ofFn d.alphas), g.stateAt d.alphas s n)
  else (.error .unwrap, s)
variable [FP]
/-- src/multivariate/dirichlet.rs:87-93 `log_pdf` (the length assertion holds by typing) -/
noncomputable def logPdf (xs : Fin n → F64) : F64 :=
  (List.ofFn fun i => (xs i, d.alphas i)).foldl (fun acc xa => acc + (xa.2 - 1) * xa.1.ln) (-d.lnBetaAlphas)
/-- src/multivariate/dirichlet.rs:85 `pdf` -/
noncomputable def pdf (xs : Fin n → F64) : F64 := (d.logPdf xs).exp
/-- src/multivariate/dirichlet.rs:99 `mean` -/
def mean : Fin n → F64 := d.alphasNormed
/-- src/multivariate/dirichlet.rs:101-105 `variance` -/
noncomputable def variance : Fin n → F64 :=
  let norm := d.alpha0 * d.alpha0 * (d.alpha0 + 1)
  fun i => -d.alphas i * (d.alphas i - d.alpha0) / norm
/-- src/multivariate/dirichlet.rs:107-126 `covariance` -/
noncomputable def covariance : Fin n → Fin n → F64 :=
  let norm := d.alpha0 * d.alpha0 * (d.alpha0 + 1)
  fun i j => if i = j then d.alphas i * (d.alpha0 - d.alphas i) / norm else -d.alphas i * d.alphas j / norm
/-- src/multivariate/dirichlet.rs:130-134 `modes` -/
noncomputable def modes : List (Fin n → F64) :=
  let k := F64.ofNat n
  [fun i => (d.alphas i - 1) / (d.alpha0 - k)]
end Dirichlet

/-! ### src/multivariate/multinomial.rs -/

/-- src/multivariate/multinomial.rs:22-25, :47-48 `Multinomial(Params { n, ps })`; the `SimplexVector<N>` is kept as its array -/
@[ext] structure Multinomial (N : ℕ) where
  n : ℕ
  ps : Fin N → F64

/-- `xs.iter().fold(0, |acc, x| acc + x)` on usize -/
def usumFold (pr : Profile) : ℕ → List ℕ → Except Panic ℕ
  | acc, [] => .ok acc
  | acc, x :: xs => do let a ← uadd pr acc x; usumFold pr a xs

namespace Multinomial
variable {N : ℕ}
/-- src/multivariate/multinomial.rs:28-33 `Params::new` and :51-53 `new` -/
noncomputable def new [FP] (n : ℕ) (ps : Fin N → F64) : Except Err (Multinomial N) := do
  let n ← Count.newU n
  let _ ← SimplexVector.newE (List.ofFn ps)
  .ok ⟨n, ps⟩
/-- src/multivariate/multinomial.rs:35-40, :55-57 `new_unchecked` -/
def newUnchecked (n : ℕ) (ps : Fin N → F64) : Multinomial N := ⟨n, ps⟩
variable (pr : Profile) (d : Multinomial N)
/-- src/multivariate/multinomial.rs:84 `params` -/
def params : ℕ × (Fin N → F64) := (d.n, d.ps)
/-- src/multivariate/multinomial.rs:70-82 `support`: the closed intervals' end points -/
def support : Fin N → ℕ × ℕ := fun _ => (0, d.n)
variable [FP]
/-- src/multivariate/multinomial.rs:99-120 `log_pmf`; the panic test is `sum == n` as in the source -/
noncomputable def logPmf (xs : Fin N → ℕ) : Except Panic F64 :=
  match assertEqU N N with
  | .error _ => .error .unwrap
  | .ok _ => do
    let s ← usumFold pr 0 (List.ofFn xs)
    if s = d.n then .error .explicit
    else
      let term1 := (F64.ofNat d.n + 1).loggamma
      let term2 := (List.ofFn fun i => (xs i, d.ps i)).foldl (fun acc xp =>
        let xf := F64.ofNat xp.1
        let xlogy := if xp.1 = 0 then 0 else xf * xp.2.ln
        acc + xlogy - (xf + 1).loggamma) 0
      .ok (term1 + term2)
/-- src/multivariate/multinomial.rs:92-97 `pmf` -/
noncomputable def pmf (xs : Fin N → ℕ) : Except Panic Probability := do
  let s ← usumFold pr 0 (List.ofFn xs)
  if s = 0 then .ok Probability.zero
  else
    let l ← d.logPmf pr xs
    match Probability.new l.exp with
    | .ok p => .ok p
    | .error _ => .error .unwrap
/-- src/multivariate/multinomial.rs:126 `mean` -/
noncomputable def mean : Fin N → F64 := fun i => d.ps i * F64.ofNat d.n
/-- src/multivariate/multinomial.rs:128 `variance` -/
noncomputable def variance : Fin N → F64 := fun i => (d.ps i * (1 - d.ps i)) * F64.ofNat d.n
/-- src/multivariate/multinomial.rs:130-143 `covariance` -/
noncomputable def covariance : Fin N → Fin N → F64 :=
  let n := F64.ofNat d.n
  fun i j => if i = j then n * d.ps i * (1 - d.ps i) else -n * d.ps i * d.ps j
/-- src/multivariate/multinomial.rs:145-163 `correlation` -/
noncomputable def correlation : Fin N → Fin N → F64 := fun i j =>
  if i = j then 1 else -(d.ps i * d.ps j / (1 - d.ps i) / (1 - d.ps j)).sqrt
end Multinomial

/-! ### src/multivariate/lognormal.rs

The three instances wrap `MvNormal`, `DiagNormal`, `IsoNormal`; the generic impl only uses the wrapped law's `variance`,
`covariance`, `mu`, `pdf` and `sample`, which are passed explicitly. -/
namespace MvLogNormal
variable {n : ℕ}
/-- src/multivariate/lognormal.rs:129-137 `update_index!(i, j)` on the matrix being rewritten in place -/
noncomputable def updateIndex [FP] (mu : Fin n → F64) (cov : Fin n → Fin n → F64) (ij : Fin n × Fin n) : Fin n → Fin n → F64 :=
  let x := mu ij.1 + mu ij.2
  let y := (cov ij.1 ij.1 + cov ij.2 ij.2) / 2
  let z := (cov ij.1 ij.2).exp - 1
  fun a b => if a = ij.1 ∧ b = ij.2 then (x + y).exp * z else cov a b
/-- the index pairs in the order of the loop, src/multivariate/lognormal.rs:140-150 -/
def order (n : ℕ) : List (Fin n × Fin n) :=
  (List.finRange n).flatMap fun i =>
    ((List.finRange n).filter fun j => j < i).map (fun j => (i, j)) ++
    ((List.finRange n).filter fun j => i < j).map (fun j => (i, j)) ++ [(i, i)]
/-- src/multivariate/lognormal.rs:124-152 `covariance`, from the wrapped normal's `mu` and `covariance()` -/
noncomputable def covariance [FP] (mu : Fin n → F64) (cov : Fin n → Fin n → F64) : Fin n → Fin n → F64 :=
  (order n).foldl (updateIndex mu) cov
/-- src/multivariate/lognormal.rs:114-122 `mean`, from the wrapped normal's `mu` and `variance()` -/
noncomputable def mean [FP] (mu var : Fin n → F64) : Fin n → F64 := fun i => (mu i + var i / 2).exp
/-- src/multivariate/lognormal.rs:154-162 `variance` -/
noncomputable def variance [FP] (mu var : Fin n → F64) : Fin n → F64 :=
  fun i => (2 * mu i + var i).exp * ((var i).exp - 1)
/-- src/multivariate/lognormal.rs:97-101 `pdf`, from the wrapped normal's `pdf` -/
noncomputable def pdf [FP] (npdf : (Fin n → F64) → F64) (x : Fin n → F64) : F64 := npdf fun i => (x i).ln
/-- src/multivariate/lognormal.rs:87-89 `sample`, from the wrapped normal's draw and the generator state it leaves -/
noncomputable def sample [FP] {σ : Type} (y : (Fin n → F64) × σ) : (Fin n → F64) × σ := (fun i => (y.1 i).exp, y.2)
end MvLogNormal
end Rstat
