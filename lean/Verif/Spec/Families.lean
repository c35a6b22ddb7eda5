import Verif.Spec.Prob
import Verif.Spec.Special
import Mathlib.Analysis.SpecialFunctions.Trigonometric.Inverse
import Mathlib.Analysis.SpecialFunctions.Trigonometric.Arctan

/-! Textbook densities and distribution functions of the named families, written without reference to the code. -/
namespace Rstat.Spec
open Real
open Classical

/-- density of the uniform law on `[a, b]` -/
noncomputable def uniformPDF (a b x : ℝ) : ℝ := if a ≤ x ∧ x ≤ b then 1 / (b - a) else 0
/-- distribution function of the uniform law on `[a, b]` -/
noncomputable def uniformCDF (a b x : ℝ) : ℝ := if x < a then 0 else if b ≤ x then 1 else (x - a) / (b - a)
/-- mass function of the uniform law on the integers `a, …, b` -/
noncomputable def uniformPMF (a b k : ℤ) : ℝ := if a ≤ k ∧ k ≤ b then 1 / ((b - a : ℤ) + 1 : ℝ) else 0

/-- distribution function of the exponential law of rate `r` -/
noncomputable def expCDF (r x : ℝ) : ℝ := if x ≤ 0 then 0 else 1 - rexp (-(r * x))
/-- density of the exponential law of rate `r` -/
noncomputable def expPDF (r x : ℝ) : ℝ := if 0 ≤ x then r * rexp (-(r * x)) else 0
/-- distribution function of the Cauchy law -/
noncomputable def cauchyCDF (x₀ γ x : ℝ) : ℝ := 1 / 2 + arctan ((x - x₀) / γ) / π
/-- density of the Cauchy law -/
noncomputable def cauchyDensity (x₀ γ x : ℝ) : ℝ := 1 / (π * γ * (1 + ((x - x₀) / γ) ^ 2))
/-- distribution function of the arcsine law on `[a, b]` -/
noncomputable def arcsineCDF (a b x : ℝ) : ℝ :=
  if x < a then 0 else if b ≤ x then 1 else 2 / π * arcsin (√((x - a) / (b - a)))
/-- density of the arcsine law on `[a, b]` -/
noncomputable def arcsinePDF (a b x : ℝ) : ℝ := if x ≤ a ∨ b ≤ x then 0 else 1 / (π * √((x - a) * (b - x)))

/-- density of the Laplace law with location `m` and scale `b` -/
noncomputable def laplacePDF (m b x : ℝ) : ℝ := rexp (-|x - m| / b) / (2 * b)
/-- distribution function of the Laplace law -/
noncomputable def laplaceCDF (m b x : ℝ) : ℝ :=
  if x ≤ m then rexp ((x - m) / b) / 2 else 1 - rexp (-(x - m) / b) / 2
/-- distribution function of the logistic law -/
noncomputable def logisticCDF (m s x : ℝ) : ℝ := 1 / (1 + rexp (-(x - m) / s))
/-- density of the logistic law -/
noncomputable def logisticPDF (m s x : ℝ) : ℝ := rexp (-(x - m) / s) / (s * (1 + rexp (-(x - m) / s)) ^ 2)
/-- distribution function of the Gumbel law -/
noncomputable def gumbelCDF (m b x : ℝ) : ℝ := rexp (-rexp (-(x - m) / b))
/-- density of the Gumbel law -/
noncomputable def gumbelPDF (m b x : ℝ) : ℝ := rexp (-(x - m) / b) * rexp (-rexp (-(x - m) / b)) / b
/-- distribution function of the (standard) Fréchet law of shape `a` -/
noncomputable def frechetCDF (a x : ℝ) : ℝ := if x ≤ 0 then 0 else rexp (-x ^ (-a))
/-- density of the (standard) Fréchet law of shape `a` -/
noncomputable def frechetPDF (a x : ℝ) : ℝ := if x ≤ 0 then 0 else a * x ^ (-1 - a) * rexp (-x ^ (-a))
/-- distribution function of the Weibull law of scale `l` and shape `k` -/
noncomputable def weibullCDF (l k x : ℝ) : ℝ := if x ≤ 0 then 0 else 1 - rexp (-(x / l) ^ k)
/-- density of the Weibull law of scale `l` and shape `k` -/
noncomputable def weibullPDF (l k x : ℝ) : ℝ := if x ≤ 0 then 0 else k / l * (x / l) ^ (k - 1) * rexp (-(x / l) ^ k)
/-- distribution function of the Rayleigh law -/
noncomputable def rayleighCDF (s x : ℝ) : ℝ := if x ≤ 0 then 0 else 1 - rexp (-x ^ 2 / (2 * s ^ 2))
/-- density of the Rayleigh law -/
noncomputable def rayleighPDF (s x : ℝ) : ℝ := if x ≤ 0 then 0 else x / s ^ 2 * rexp (-x ^ 2 / (2 * s ^ 2))
/-- distribution function of the Kumaraswamy law -/
noncomputable def kumaraswamyCDF (a b x : ℝ) : ℝ := if x < 0 then 0 else if 1 ≤ x then 1 else 1 - (1 - x ^ a) ^ b
/-- density of the Kumaraswamy law -/
noncomputable def kumaraswamyPDF (a b x : ℝ) : ℝ :=
  if x ≤ 0 ∨ 1 ≤ x then 0 else a * b * x ^ (a - 1) * (1 - x ^ a) ^ (b - 1)
/-- distribution function of the Pareto law -/
noncomputable def paretoCDF (m a x : ℝ) : ℝ := if x ≤ m then 0 else 1 - (m / x) ^ a
/-- density of the Pareto law -/
noncomputable def paretoPDF (m a x : ℝ) : ℝ := if x < m then 0 else a * m ^ a * x ^ (-(a + 1))
/-- distribution function of the triangular law on `[a, b]` with peak `c` -/
noncomputable def triangularCDF (a b c x : ℝ) : ℝ :=
  if x ≤ a then 0 else if x ≤ c then (x - a) ^ 2 / ((b - a) * (c - a))
  else if x < b then 1 - (b - x) ^ 2 / ((b - a) * (b - c)) else 1
/-- density of the triangular law on `[a, b]` with peak `c` -/
noncomputable def triangularPDF (a b c x : ℝ) : ℝ :=
  if x < a then 0 else if x < c then 2 * (x - a) / ((b - a) * (c - a)) else if x = c then 2 / (b - a)
  else if x ≤ b then 2 * (b - x) / ((b - a) * (b - c)) else 0
/-- distribution function of the raised-cosine law on `[m - s, m + s]` -/
noncomputable def cosineCDF (m s x : ℝ) : ℝ :=
  if x < m - s then 0 else if m + s ≤ x then 1 else (1 + (x - m) / s + sin (π * ((x - m) / s)) / π) / 2
/-- density of the raised-cosine law on `[m - s, m + s]` -/
noncomputable def cosinePDF (m s x : ℝ) : ℝ :=
  if x ≤ m - s ∨ m + s ≤ x then 0 else (1 + cos (π * ((x - m) / s))) / (2 * s)
/-- distribution function of the generalised Pareto law with shape `z > 0` -/
noncomputable def gpdCDF (m s z x : ℝ) : ℝ := if x ≤ m then 0 else 1 - (1 + z * ((x - m) / s)) ^ (-1 / z)
/-- density of the generalised Pareto law with shape `z > 0` -/
noncomputable def gpdPDF (m s z x : ℝ) : ℝ := if x < m then 0 else (1 + z * ((x - m) / s)) ^ (-(1 / z + 1)) / s
/-- distribution function of the generalised extreme value law with shape `z > 0` -/
noncomputable def gevCDF (m s z x : ℝ) : ℝ :=
  if x ≤ m - s / z then 0 else rexp (-(1 + z * ((x - m) / s)) ^ (-1 / z))
/-- density of the generalised extreme value law with shape `z > 0` -/
noncomputable def gevPDF (m s z x : ℝ) : ℝ :=
  if x ≤ m - s / z then 0
  else (1 + z * ((x - m) / s)) ^ (-(1 / z + 1)) * rexp (-(1 + z * ((x - m) / s)) ^ (-1 / z)) / s

end Rstat.Spec
