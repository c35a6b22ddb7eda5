import Mathlib.Analysis.SpecialFunctions.Gamma.Basic
import Mathlib.Analysis.SpecialFunctions.Gamma.Deriv
import Mathlib.Analysis.SpecialFunctions.Gaussian.GaussianIntegral
import Mathlib.MeasureTheory.Integral.IntervalIntegral.Basic

/-!
Mathematical special functions, as textbook definitions.  They are what `special_fun`'s routines
(cephes) are documented to approximate; used only to *specify* the exact reading of the model.
-/
namespace Rstat.Spec
open Real MeasureTheory

/-- error function `erf x = 2/√π ∫₀ˣ e^{-t²} dt` -/
noncomputable def erf (x : ℝ) : ℝ := 2 / √π * ∫ t in (0:ℝ)..x, Real.exp (-t ^ 2)

/-- standard normal distribution function -/
noncomputable def Phi (x : ℝ) : ℝ := (1 + erf (x / √2)) / 2

/-- Euler Beta function -/
noncomputable def Beta (a b : ℝ) : ℝ := Real.Gamma a * Real.Gamma b / Real.Gamma (a + b)

/-- digamma: logarithmic derivative of Gamma on the reals -/
noncomputable def digamma (a : ℝ) : ℝ := deriv (fun t => Real.log (Real.Gamma t)) a

/-- Riemann zeta function on `s > 1`, by its Dirichlet series `Σ_{n ≥ 1} n^{-s}` -/
noncomputable def zeta (s : ℝ) : ℝ := ∑' n : ℕ, 1 / ((n : ℝ) + 1) ^ s

/-- regularised lower incomplete gamma function `P(a,x)` -/
noncomputable def gammaP (a x : ℝ) : ℝ :=
  (∫ t in (0:ℝ)..x, t ^ (a - 1) * Real.exp (-t)) / Real.Gamma a

/-- regularised incomplete beta function `I_x(a,b)` -/
noncomputable def betaI (x a b : ℝ) : ℝ :=
  (∫ t in (0:ℝ)..x, t ^ (a - 1) * (1 - t) ^ (b - 1)) / Beta a b

/-- Gauss's hypergeometric function `₂F₁(a,b;c;z)` for `0 < a < c`, `z < 1`, by Euler's integral -/
noncomputable def hyp2f1 (a b c z : ℝ) : ℝ :=
  Real.Gamma c / (Real.Gamma a * Real.Gamma (c - a)) * ∫ t in (0:ℝ)..1, t ^ (a - 1) * (1 - t) ^ (c - a - 1) * (1 - z * t) ^ (-b)

end Rstat.Spec
