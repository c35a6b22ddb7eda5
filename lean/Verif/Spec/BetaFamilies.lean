import Verif.Spec.Special

/-! Textbook densities and distribution functions of the laws built on the Beta function (the Beta density itself is
Mathlib's `ProbabilityTheory.betaPDFReal`). -/
namespace Rstat.Spec

/-- distribution function of the Beta law -/
noncomputable def betaCDF (a b x : ℝ) : ℝ := if x < 0 then 0 else if 1 ≤ x then 1 else betaI x a b

/-- Beta prime law: law of `U/(1-U)`, `U ~ Beta(a, b)` -/
noncomputable def betaPrimePDF (a b x : ℝ) : ℝ := if x ≤ 0 then 0 else x ^ (a - 1) * (1 + x) ^ (-a - b) / Beta a b
noncomputable def betaPrimeCDF (a b x : ℝ) : ℝ := if x ≤ 0 then 0 else betaI (x / (1 + x)) a b

/-- Fisher's F law with `m` and `n` degrees of freedom -/
noncomputable def fPDF (m n x : ℝ) : ℝ :=
  if x ≤ 0 then 0 else Real.sqrt ((m * x) ^ m * n ^ n / (m * x + n) ^ (m + n)) / (x * Beta (m / 2) (n / 2))
noncomputable def fCDF (m n x : ℝ) : ℝ := if x ≤ 0 then 0 else betaI (m * x / (m * x + n)) (m / 2) (n / 2)

/-- Student's t law with `n` degrees of freedom -/
noncomputable def studentPDF (n x : ℝ) : ℝ :=
  Real.Gamma ((n + 1) / 2) / (Real.sqrt (n * Real.pi) * Real.Gamma (n / 2)) * (1 + x ^ 2 / n) ^ (-(n + 1) / 2)
/-- its distribution function, by definition -/
noncomputable def studentCDF (n x : ℝ) : ℝ := ∫ t in Set.Iic x, studentPDF n t

/-- Beta-binomial law: number of successes in `n` trials whose success probability is drawn from Beta(a, b) -/
noncomputable def betaBinPMF (n : ℕ) (a b : ℝ) (k : ℕ) : ℝ := n.choose k * Beta (k + a) (n - k + b) / Beta a b
end Rstat.Spec
