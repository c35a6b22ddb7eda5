import Verif.Spec.Special
import Mathlib.Probability.Distributions.Gaussian.Real

/-! Textbook densities and distribution functions of the Lévy, log-normal, folded normal and inverse Gaussian laws. -/
namespace Rstat.Spec
open ProbabilityTheory

/-- Lévy law with location `m` and scale `c` -/
noncomputable def levyPDF (m c x : ℝ) : ℝ :=
  if x ≤ m then 0 else Real.sqrt (c / (2 * Real.pi)) * Real.exp (-c / (2 * (x - m))) / (x - m) ^ (3 / 2 : ℝ)
noncomputable def levyCDF (m c x : ℝ) : ℝ := if x ≤ m then 0 else 1 - erf (Real.sqrt (c / (2 * (x - m))))

/-- log-normal law: law of `exp Y`, `Y ~ N(μ, variance v)` -/
noncomputable def logNormalPDF (μ v x : ℝ) : ℝ := if x ≤ 0 then 0 else gaussianPDFReal μ v.toNNReal (Real.log x) / x
noncomputable def logNormalCDF (μ v x : ℝ) : ℝ := if x ≤ 0 then 0 else Phi ((Real.log x - μ) / Real.sqrt v)

/-- folded normal law: law of `|Y|`, `Y ~ N(μ, standard deviation s)` -/
noncomputable def foldedPDF (μ s x : ℝ) : ℝ :=
  if x < 0 then 0 else gaussianPDFReal μ (s ^ 2).toNNReal x + gaussianPDFReal μ (s ^ 2).toNNReal (-x)
noncomputable def foldedCDF (μ s x : ℝ) : ℝ := if x < 0 then 0 else Phi ((x - μ) / s) - Phi ((-x - μ) / s)

/-- inverse Gaussian (Wald) law with mean `μ` and shape `l` -/
noncomputable def invNormalPDF (μ l x : ℝ) : ℝ :=
  if x ≤ 0 then 0 else Real.sqrt (l / (2 * Real.pi * x ^ 3)) * Real.exp (-l * (x - μ) ^ 2 / (2 * μ ^ 2 * x))
noncomputable def invNormalCDF (μ l x : ℝ) : ℝ :=
  if x ≤ 0 then 0 else
    Phi (Real.sqrt (l / x) * (x / μ - 1)) + Real.exp (2 * l / μ) * Phi (-(Real.sqrt (l / x) * (x / μ + 1)))
end Rstat.Spec
