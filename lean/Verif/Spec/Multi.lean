import Verif.Spec.Prob
import Mathlib.Data.Nat.Factorial.Basic
import Mathlib.Probability.Distributions.Gamma
import Mathlib.LinearAlgebra.Matrix.PosDef
import Mathlib.MeasureTheory.Measure.Lebesgue.Basic
import Mathlib.Analysis.InnerProductSpace.PiL2

/-! Specification vocabulary for laws on vectors. -/
namespace Rstat.Spec
open MeasureTheory ProbabilityTheory Matrix

/-- `X` and `Y` have means under the mass function `p`, and their covariance is `c` -/
def HasCovD {α : Type*} (p X Y : α → ℝ) (c : ℝ) : Prop :=
  ∃ mx my, HasSum (fun a => X a * p a) mx ∧ HasSum (fun a => Y a * p a) my ∧ HasSum (fun a => (X a - mx) * (Y a - my) * p a) c

/-- `X` and `Y` have means under the measure `P`, and their covariance is `c` -/
def HasCovM {Ω : Type*} [MeasurableSpace Ω] (P : Measure Ω) (X Y : Ω → ℝ) (c : ℝ) : Prop :=
  ∃ mx my, Integrable X P ∧ Integrable Y P ∧ ∫ a, X a ∂P = mx ∧ ∫ a, Y a ∂P = my ∧
    Integrable (fun a => (X a - mx) * (Y a - my)) P ∧ ∫ a, (X a - mx) * (Y a - my) ∂P = c

/-- multinomial mass function: `n` trials with category probabilities `p` -/
noncomputable def multinomialPMF {N : ℕ} (n : ℕ) (p : Fin N → ℝ) (x : Fin N → ℕ) : ℝ :=
  if ∑ i, x i = n then (n.factorial : ℝ) / (∏ i, ((x i).factorial : ℝ)) * ∏ i, p i ^ x i else 0

/-- the Dirichlet law, as the law of independent Gamma variates of shapes `a` and rate 1 divided by their sum -/
noncomputable def dirichletLaw {n : ℕ} (a : Fin n → ℝ) : Measure (Fin n → ℝ) :=
  (Measure.pi fun i => gammaMeasure (a i) 1).map fun g i => g i / ∑ j, g j

/-- the Dirichlet density (with respect to Lebesgue measure on all coordinates but one) -/
noncomputable def dirichletPDF {n : ℕ} (a x : Fin n → ℝ) : ℝ :=
  Real.Gamma (∑ i, a i) / (∏ i, Real.Gamma (a i)) * ∏ i, x i ^ (a i - 1)

/-- the probability simplex -/
def OnSimplex {n : ℕ} (x : Fin n → ℝ) : Prop := (∀ i, 0 ≤ x i) ∧ ∑ i, x i = 1

/-- a largest value of `f` on the simplex -/
def IsSimplexMode {n : ℕ} (f : (Fin n → ℝ) → ℝ) (x : Fin n → ℝ) : Prop := OnSimplex x ∧ ∀ y, OnSimplex y → f y ≤ f x

/-- the law of the coordinatewise exponential of a vector with law `P` -/
noncomputable def expLaw {n : ℕ} (P : Measure (EuclideanSpace ℝ (Fin n))) : Measure (Fin n → ℝ) := P.map fun x i => Real.exp (x i)

/-- density of the coordinatewise exponential of a Gaussian vector whose density is `g` -/
noncomputable def expVecPDF {n : ℕ} (g : (Fin n → ℝ) → ℝ) (y : Fin n → ℝ) : ℝ :=
  if ∀ i, 0 < y i then g (fun i => Real.log (y i)) / ∏ i, y i else 0

/-- density of the Gaussian with mean `m` and (positive definite) covariance `M` -/
noncomputable def mvGaussianPDF {n : ℕ} (m : Fin n → ℝ) (M : Matrix (Fin n) (Fin n) ℝ) (x : Fin n → ℝ) : ℝ :=
  Real.exp (-((x - m) ⬝ᵥ (M⁻¹ *ᵥ (x - m))) / 2) / √((2 * Real.pi) ^ n * M.det)

/-- differential entropy in dimension `n` -/
def HasEntropyN {n : ℕ} (f : (Fin n → ℝ) → ℝ) (h : ℝ) : Prop :=
  Integrable (fun x => f x * Real.log (f x)) ∧ -∫ x, f x * Real.log (f x) = h

/-- the point of the simplex with given coordinates after the first -/
noncomputable def simplexPoint {m : ℕ} (y : Fin m → ℝ) : Fin (m + 1) → ℝ := Fin.cons (1 - ∑ i, y i) y

end Rstat.Spec
