import Verif.Model.Dist.Params
import Verif.Model.MvNormal
import Verif.Model.Multi
import Mathlib.Data.Set.Basic

/-! `support()` of the distributions. The space types belong to the external crate `spaces`; `points` says what they are trusted to mean.
The supports already modelled as pairs of end points (arcsine, cosine, triangular, uniform, beta) are wrapped here. -/
namespace Rstat

/-- the spaces of real numbers returned by `support()`: `Reals`, `PositiveReals`, `NonNegativeReals`, `Closed`, `LeftClosed` of the
`spaces` crate (trusted) -/
inductive RealSpace
  | reals
  | positive
  | nonNegative
  | closed (a b : F64)
  | leftClosed (a : F64)

/-- the real numbers in a space -/
def RealSpace.points [FP] : RealSpace → Set ℝ
  | .reals => Set.univ
  | .positive => {x | 0 < x}
  | .nonNegative => {x | 0 ≤ x}
  | .closed a b => {x | a ≤ F64.fin x ∧ F64.fin x ≤ b}
  | .leftClosed a => {x | a ≤ F64.fin x}

/-- the vectors in an array of spaces -/
def RealSpace.box [FP] {n : ℕ} (S : Fin n → RealSpace) : Set (Fin n → ℝ) := {x | ∀ i, x i ∈ (S i).points}

/-- src/univariate/gumbel.rs:52 `support`: `reals()` -/
def Gumbel.support (_ : Gumbel) : RealSpace := .reals
/-- src/univariate/gev.rs:64 `support`: `reals()` -/
def GeneralisedExtremeValue.support (_ : GeneralisedExtremeValue) : RealSpace := .reals
/-- src/univariate/cauchy.rs:58 `support`: `reals()` -/
def Cauchy.support (_ : Cauchy) : RealSpace := .reals
/-- src/univariate/gpd.rs:46 `support`: `reals()` -/
def GeneralisedPareto.support (_ : GeneralisedPareto) : RealSpace := .reals
/-- src/univariate/logistic.rs:48 `support`: `reals()` -/
def Logistic.support (_ : Logistic) : RealSpace := .reals
/-- src/univariate/laplace.rs:41 `support`: `reals()` -/
def Laplace.support (_ : Laplace) : RealSpace := .reals
/-- src/univariate/student_t.rs:40 `support`: `reals()` -/
def StudentT.support (_ : StudentT) : RealSpace := .reals
/-- src/normal/univariate.rs:87 `support`: `reals()` -/
def UvNormal.support (_ : UvNormal) : RealSpace := .reals
/-- src/univariate/degenerate.rs:51 `support`: `reals()` -/
def DegenerateF.support (_ : DegenerateF) : RealSpace := .reals
/-- src/univariate/inverse_gamma.rs:46 `support`: `positive_reals()` -/
def InvGamma.support (_ : InvGamma) : RealSpace := .positive
/-- src/univariate/frechet.rs:43 `support`: `positive_reals()` -/
def Frechet.support (_ : Frechet) : RealSpace := .positive
/-- src/univariate/chi.rs:41 `support`: `positive_reals()` -/
def Chi.support (_ : Chi) : RealSpace := .positive
/-- src/univariate/weibull.rs:43 `support`: `positive_reals()` -/
def Weibull.support (_ : Weibull) : RealSpace := .positive
/-- src/univariate/f_dist.rs:42 `support`: `positive_reals()` -/
def FDist.support (_ : FDist) : RealSpace := .positive
/-- src/univariate/exponential.rs:45 `support`: `positive_reals()` -/
def Exponential.support (_ : Exponential) : RealSpace := .positive
/-- src/univariate/gamma.rs:63 `support`: `positive_reals()` -/
def Gamma.support (_ : Gamma) : RealSpace := .positive
/-- src/univariate/inverse_normal.rs:67 `support`: `positive_reals()` -/
def InvNormal.support (_ : InvNormal) : RealSpace := .positive
/-- src/univariate/rayleigh.rs:48 `support`: `positive_reals()` -/
def Rayleigh.support (_ : Rayleigh) : RealSpace := .positive
/-- src/univariate/lognormal.rs:47 `support`: `positive_reals()` -/
def LogNormal.support (_ : LogNormal) : RealSpace := .positive
/-- src/univariate/beta_prime.rs:46 `support`: `positive_reals()` -/
def BetaPrime.support (_ : BetaPrime) : RealSpace := .positive
/-- src/univariate/chi_sq.rs:41 `support`: `positive_reals()` -/
def ChiSq.support (_ : ChiSq) : RealSpace := .positive
/-- src/univariate/erlang.rs:49 `support`: `positive_reals()` -/
def Erlang.support (_ : Erlang) : RealSpace := .positive
/-- src/univariate/folded_normal.rs:60 `support`: `non_negative_reals()` -/
def FoldedNormal.support (_ : FoldedNormal) : RealSpace := .nonNegative
/-- src/univariate/kumaraswamy.rs:46 `support`: `Closed::unit()` -/
noncomputable def Kumaraswamy.support [FP] (_ : Kumaraswamy) : RealSpace := .closed 0 1
/-- src/univariate/pareto.rs:42 `support`: `left_closed(x_m)` -/
def Pareto.support (d : Pareto) : RealSpace := .leftClosed d.xm
/-- src/univariate/levy.rs:39 `support`: `left_closed(mu)` -/
def Levy.space (d : Levy) : RealSpace := .leftClosed d.support
/-- src/univariate/beta.rs:51 `support`: `Closed::unit()` -/
noncomputable def BetaDist.space [FP] (d : BetaDist) : RealSpace := .closed d.support.1 d.support.2
/-- src/univariate/arcsine.rs:47-51 `support` -/
noncomputable def Arcsine.space [FP] (d : Arcsine) : RealSpace := .closed d.support.1 d.support.2
/-- src/univariate/cosine.rs:51-55 `support` -/
noncomputable def Cosine.space [FP] (d : Cosine) : RealSpace := .closed d.support.1 d.support.2
/-- src/univariate/triangular.rs:60-62 `support` -/
noncomputable def Triangular.space [FP] (d : Triangular) : RealSpace := .closed d.support.1 d.support.2
/-- src/univariate/uniform.rs:112-116 `support` -/
noncomputable def UniformF.space [FP] (d : UniformF) : RealSpace := .closed d.support.1 d.support.2
/-- src/univariate/geometric.rs:45 `support`: `non_negative_integers()` -/
def Geometric.support (_ : Geometric) : Set ℕ := Set.univ
/-- src/univariate/degenerate.rs:109 `support` of `Degenerate<i64>`: `integers()` -/
def DegenerateI.support (_ : DegenerateI) : Set ℤ := Set.univ
/-- src/normal/multivariate.rs:177 `support`: `[reals(); N]` -/
def MvNormal.support {n : ℕ} (_ : MvNormal n) : Fin n → RealSpace := fun _ => .reals
/-- src/normal/multivariate.rs:383 `support` -/
def DiagNormal.support {n : ℕ} (_ : DiagNormal n) : Fin n → RealSpace := fun _ => .reals
/-- src/normal/multivariate.rs:624 `support` -/
def IsoNormal.support {n : ℕ} (_ : IsoNormal n) : Fin n → RealSpace := fun _ => .reals
/-- src/normal/bivariate.rs:113 `support`: `[reals(); 2]` -/
def BvNormal.support (_ : BvNormal) : Fin 2 → RealSpace := fun _ => .reals
/-- src/normal/paired.rs:87 `support`: `[reals(); 2]` -/
def PairedNormal.support (_ : PairedNormal) : Fin 2 → RealSpace := fun _ => .reals
/-- src/multivariate/lognormal.rs:81 `support`: `[positive_reals(); N]` -/
def MvLogNormal.support (n : ℕ) : Fin n → RealSpace := fun _ => .positive
/-- src/multivariate/dirichlet.rs:56 `support`: `[Closed::unit(); N]` -/
noncomputable def Dirichlet.support [FP] {n : ℕ} (_ : Dirichlet n) : Fin n → RealSpace := fun _ => .closed 0 1
end Rstat
