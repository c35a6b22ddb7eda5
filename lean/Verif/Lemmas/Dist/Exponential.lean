import Verif.Lemmas.Dist.Gamma
import Verif.Spec.Families
import Mathlib.Probability.Distributions.Exponential
import Mathlib.Analysis.SpecialFunctions.Integrals.Basic

namespace Rstat.Spec
open MeasureTheory Filter Topology Set Real ProbabilityTheory

theorem gammaP_one (x : ℝ) : gammaP 1 x = 1 - rexp (-x) := by
  unfold gammaP
  rw [Real.Gamma_one, div_one]
  simp only [sub_self, rpow_zero, one_mul]
  rw [intervalIntegral.integral_comp_neg (fun t => rexp t), integral_exp]; simp

theorem expPDF_eq_gamma (r : ℝ) : expPDF r = gammaPDFReal 1 r := by
  ext x; unfold expPDF gammaPDFReal; simp

theorem expPDF_eq_mathlib (r : ℝ) : expPDF r = exponentialPDFReal r := expPDF_eq_gamma r

theorem expCDF_eq_gamma (r : ℝ) : expCDF r = gammaCDF 1 r := by
  ext x; unfold expCDF gammaCDF; rw [gammaP_one]

theorem exp_density {r : ℝ} (hr : 0 < r) : IsCDF (expCDF r) ∧ IsDensityOf (expPDF r) (expCDF r) := by
  rw [expCDF_eq_gamma, expPDF_eq_gamma]; exact gamma_density one_pos hr

theorem law_exp (r : ℝ) : Law (expPDF r) = expMeasure r := by rw [expPDF_eq_gamma]; rfl

theorem exp_moments {r : ℝ} (hr : 0 < r) :
    HasMeanVar (expPDF r) (1 / r) (1 / r ^ 2) ∧ HasSkew (expPDF r) 2 ∧ HasKurt (expPDF r) 9 := by
  rw [expPDF_eq_gamma]
  have := gamma_moments one_pos hr
  simp only [sqrt_one, div_one] at this
  norm_num at this ⊢
  exact this

theorem exp_std_entropy : HasEntropy (expPDF 1) 1 := by
  have hm := (exp_moments one_pos).1.1
  have e : (fun x => expPDF 1 x * Real.log (expPDF 1 x)) = fun x => -(x * expPDF 1 x) := by
    ext x; unfold expPDF; split_ifs
    · rw [one_mul, one_mul, Real.log_exp]; ring
    · simp
  unfold HasEntropy
  rw [e]
  refine ⟨hm.1.neg, ?_⟩
  rw [integral_neg, neg_neg, hm.2]; norm_num

theorem exp_entropy {r : ℝ} (hr : 0 < r) : HasEntropy (expPDF r) (1 - Real.log r) := by
  have hr' : 0 < 1 / r := by positivity
  have h := locScale_entropy (m := 0) hr' (exp_density one_pos).2 exp_std_entropy
  rw [expPDF_eq_gamma, gamma_locScale hr, ← expPDF_eq_gamma]
  rw [one_div, Real.log_inv, ← one_div, ← sub_eq_add_neg] at h
  exact h

theorem exp_fisher {r : ℝ} (hr : 0 < r) :
    fisher (fun θ : Fin 1 → ℝ => expPDF (θ 0)) (fun _ => r) 0 0 = 1 / r ^ 2 := by
  have hv := (exp_moments hr).1.2
  unfold fisher
  rw [← hv.2]
  congr 1
  ext x
  by_cases hx : 0 ≤ x
  · have hd : deriv (fun t => Real.log (expPDF (Function.update (fun _ : Fin 1 => r) 0 t 0) x)) r = 1 / r - x := by
      have he : (fun t => Real.log (expPDF (Function.update (fun _ : Fin 1 => r) 0 t 0) x)) =ᶠ[𝓝 r]
          fun t => Real.log t - t * x := by
        filter_upwards [Ioi_mem_nhds hr] with t ht
        rw [Function.update_self, expPDF, if_pos hx, Real.log_mul (ne_of_gt ht) (Real.exp_ne_zero _), Real.log_exp]; ring
      rw [he.deriv_eq]
      have h1 : HasDerivAt (fun t => Real.log t - t * x) (1 / r - 1 * x) r := by
        have := (Real.hasDerivAt_log hr.ne').sub ((hasDerivAt_id r).mul_const x)
        refine HasDerivAt.congr_deriv (f := fun t => Real.log t - t * x) this ?_
        rw [one_div]
      rw [h1.deriv, one_mul]
    simp only [Fin.isValue] at hd ⊢
    rw [hd]; ring
  · have : expPDF r x = 0 := if_neg hx
    show _ * expPDF r x = _ * expPDF r x
    rw [this, mul_zero, mul_zero]

end Rstat.Spec
