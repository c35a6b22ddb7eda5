import Mathlib.Probability.CDF
import Mathlib.MeasureTheory.Integral.Bochner.Basic
import Verif.Float.Core

/-! Specification vocabulary for univariate laws. None of it refers to the model's definitions of any
distribution. -/
namespace Rstat.Spec
open MeasureTheory Filter Topology

/-- `F` is a (cumulative) distribution function on the real line -/
structure IsCDF (F : ℝ → ℝ) : Prop where
  mono : Monotone F
  rightCont : ∀ x, ContinuousWithinAt F (Set.Ici x) x
  bot : Tendsto F atBot (𝓝 0)
  top : Tendsto F atTop (𝓝 1)

/-- `f` is a probability density whose distribution function is `F` -/
structure IsDensityOf (f F : ℝ → ℝ) : Prop where
  nonneg : ∀ x, 0 ≤ f x
  integrable : Integrable f
  total : ∫ x, f x = 1
  cdf : ∀ x, F x = ∫ t in Set.Iic x, f t

/-- the measure with density `f` -/
noncomputable def Law (f : ℝ → ℝ) : Measure ℝ := volume.withDensity fun x => ENNReal.ofReal (f x)

/-- the law with density `f` has finite mean `m` -/
def HasMean (f : ℝ → ℝ) (m : ℝ) : Prop := Integrable (fun x => x * f x) ∧ ∫ x, x * f x = m

/-- the `k`-th central moment about `m` of the law with density `f` is `v` -/
def HasCentral (f : ℝ → ℝ) (m : ℝ) (k : ℕ) (v : ℝ) : Prop :=
  Integrable (fun x => (x - m) ^ k * f x) ∧ ∫ x, (x - m) ^ k * f x = v

/-- the law with density `f` has mean `m` and variance `v` -/
def HasMeanVar (f : ℝ → ℝ) (m v : ℝ) : Prop := HasMean f m ∧ HasCentral f m 2 v

/-- the F64 function `f` computes the real function `F` on `S` -/
def Computes (f : F64 → F64) (F : ℝ → ℝ) (S : Set ℝ) : Prop := ∀ (a : F64) (x : ℝ), x ∈ S → a.Is x → (f a).Is (F x)

/-- a fallible computation returns normally, with value `r` -/
def Returns {ε : Type} (e : Except ε F64) (r : ℝ) : Prop := ∃ x, e = .ok x ∧ x.Is r

/-- `q` maximises `f` -/
def IsMode (f : ℝ → ℝ) (m : ℝ) : Prop := ∀ x, f x ≤ f m

/-- `p` is a probability mass function on a countable type -/
def IsPMF {α : Type*} (p : α → ℝ) : Prop := (∀ a, 0 ≤ p a) ∧ HasSum p 1

/-- the differential entropy `-∫ f ln f` of the density `f` is `h` (and the integral converges) -/
def HasEntropy (f : ℝ → ℝ) (h : ℝ) : Prop :=
  Integrable (fun x => f x * Real.log (f x)) ∧ -∫ x, f x * Real.log (f x) = h

/-- the standardised third moment of the law with density `f` is `s` -/
def HasSkew (f : ℝ → ℝ) (s : ℝ) : Prop :=
  ∃ m v, 0 < v ∧ HasMeanVar f m v ∧ HasCentral f m 3 (s * Real.sqrt v ^ 3)

/-- the standardised fourth moment of the law with density `f` is `κ` -/
def HasKurt (f : ℝ → ℝ) (κ : ℝ) : Prop := ∃ m v, 0 < v ∧ HasMeanVar f m v ∧ HasCentral f m 4 (κ * v ^ 2)

/-- `x` is the generalised inverse of `F` at `p`: the least point where `F` reaches `p` -/
def IsQuantile (F : ℝ → ℝ) (p x : ℝ) : Prop := IsLeast {y | p ≤ F y} x

/-- `k`-th central moment about `m` of a random quantity `X` under the mass function `p` -/
def HasCentralD {α : Type*} (p X : α → ℝ) (m : ℝ) (k : ℕ) (v : ℝ) : Prop := HasSum (fun a => (X a - m) ^ k * p a) v

/-- mean and variance of a random quantity `X` under the mass function `p` -/
def HasMeanVarD {α : Type*} (p X : α → ℝ) (m v : ℝ) : Prop :=
  HasSum (fun a => X a * p a) m ∧ HasCentralD p X m 2 v

/-- the standardised third moment of `X` under `p` is `s` -/
def HasSkewD {α : Type*} (p X : α → ℝ) (s : ℝ) : Prop :=
  ∃ m v, 0 < v ∧ HasMeanVarD p X m v ∧ HasCentralD p X m 3 (s * Real.sqrt v ^ 3)

/-- the standardised fourth moment of `X` under `p` is `κ` -/
def HasKurtD {α : Type*} (p X : α → ℝ) (κ : ℝ) : Prop :=
  ∃ m v, 0 < v ∧ HasMeanVarD p X m v ∧ HasCentralD p X m 4 (κ * v ^ 2)

/-- Shannon entropy `-Σ p ln p` in nats -/
def HasEntropyD {α : Type*} (p : α → ℝ) (h : ℝ) : Prop := HasSum (fun a => -(p a * Real.log (p a))) h

/-- `F` is the distribution function of the mass function `p` on an ordered type -/
def IsCDFOfPMF {α : Type*} [Preorder α] (p F : α → ℝ) : Prop := ∀ k, HasSum (fun j : Set.Iic k => p j) (F k)

/-- log-likelihood of a sample under the density `f` -/
noncomputable def logLik {α : Type*} (f : α → ℝ) (xs : List α) : ℝ := (xs.map fun x => Real.log (f x)).sum

/-- Fisher information matrix of a parametric family of densities `f θ` on the line: expectation of the outer product of
the gradient (in `θ`) of the log-density -/
noncomputable def fisher {n : ℕ} (f : (Fin n → ℝ) → ℝ → ℝ) (θ : Fin n → ℝ) (i j : Fin n) : ℝ :=
  ∫ x, deriv (fun t => Real.log (f (Function.update θ i t) x)) (θ i) *
    deriv (fun t => Real.log (f (Function.update θ j t) x)) (θ j) * f θ x

end Rstat.Spec
