import Verif.Spec.Special
import Mathlib.Analysis.SpecialFunctions.Gamma.Beta
import Mathlib.Probability.Distributions.Beta

/-! The Euler Beta integral over the reals. -/
namespace Rstat.Spec
open MeasureTheory Filter Topology Set Real

theorem beta_kernel_complex {a b u : ℝ} (hu : u ∈ Ioo (0:ℝ) 1) :
    (u : ℂ) ^ ((a : ℂ) - 1) * (1 - (u : ℂ)) ^ ((b : ℂ) - 1) = ((u ^ (a - 1) * (1 - u) ^ (b - 1) : ℝ) : ℂ) := by
  have h1 : (0:ℝ) ≤ 1 - u := by linarith [hu.2]
  push_cast
  rw [Complex.ofReal_cpow hu.1.le, Complex.ofReal_cpow h1]; push_cast; rfl

theorem beta_integral {a b : ℝ} (ha : 0 < a) (hb : 0 < b) :
    IntegrableOn (fun u : ℝ => u ^ (a - 1) * (1 - u) ^ (b - 1)) (Ioo 0 1) ∧
    ∫ u in Ioo 0 1, u ^ (a - 1) * (1 - u) ^ (b - 1) = Beta a b := by
  have hc := Complex.betaIntegral_convergent (u := (a : ℂ)) (v := (b : ℂ)) (by simpa) (by simpa)
  rw [intervalIntegrable_iff_integrableOn_Ioo_of_le zero_le_one] at hc
  have hc' : IntegrableOn (fun u : ℝ => ((u ^ (a - 1) * (1 - u) ^ (b - 1) : ℝ) : ℂ)) (Ioo 0 1) :=
    hc.congr_fun (fun u hu => beta_kernel_complex hu) measurableSet_Ioo
  have hi : IntegrableOn (fun u : ℝ => u ^ (a - 1) * (1 - u) ^ (b - 1)) (Ioo 0 1) := by
    have := hc'.re; unfold IntegrableOn; simpa using this
  refine ⟨hi, ?_⟩
  have h := Complex.betaIntegral_eq_Gamma_mul_div (a : ℂ) (b : ℂ) (by simpa) (by simpa)
  unfold Complex.betaIntegral at h
  rw [intervalIntegral.integral_of_le zero_le_one, integral_Ioc_eq_integral_Ioo,
    setIntegral_congr_fun measurableSet_Ioo (fun u hu => beta_kernel_complex hu), integral_complex_ofReal] at h
  unfold Beta
  rw [← Complex.ofReal_add, Complex.Gamma_ofReal, Complex.Gamma_ofReal, Complex.Gamma_ofReal] at h
  exact_mod_cast h

end Rstat.Spec
