import Verif.Spec.Special

/-! Textbook densities and distribution functions of the Gamma, Chi and inverse Gamma laws. -/
namespace Rstat.Spec

/-- distribution function of the Gamma law with shape `a` and rate `r` -/
noncomputable def gammaCDF (a r x : ℝ) : ℝ := if x ≤ 0 then 0 else gammaP a (r * x)

/-- density of the Chi law with `k` degrees of freedom (length of a standard normal `k`-vector) -/
noncomputable def chiPDF (k x : ℝ) : ℝ :=
  if x ≤ 0 then 0 else 2 ^ (1 - k / 2) * x ^ (k - 1) * Real.exp (-x ^ 2 / 2) / Real.Gamma (k / 2)
noncomputable def chiCDF (k x : ℝ) : ℝ := if x ≤ 0 then 0 else gammaP (k / 2) (x ^ 2 / 2)

/-- inverse Gamma law: law of `1/Y`, `Y ~ Gamma(shape a, rate b)` -/
noncomputable def invGammaPDF (a b x : ℝ) : ℝ :=
  if x ≤ 0 then 0 else b ^ a / Real.Gamma a * x ^ (-a - 1) * Real.exp (-b / x)
noncomputable def invGammaCDF (a b x : ℝ) : ℝ := if x ≤ 0 then 0 else 1 - gammaP a (b / x)
end Rstat.Spec
