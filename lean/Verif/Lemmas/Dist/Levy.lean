import Verif.Lemmas.Dist.Chi
import Verif.Lemmas.Gaussian
import Verif.Spec.NormalFamilies

/-! The Lévy law: density, distribution function, infinite moments, entropy, mode. -/
namespace Rstat.Spec
open MeasureTheory Filter Topology Set Real ProbabilityTheory

/-- a distribution function with a density is continuous -/
theorem IsDensityOf.continuous {f F : ℝ → ℝ} (h : IsDensityOf f F) : Continuous F := by
  rw [show F = fun x => ∫ t in Iic x, f t from funext h.cdf, continuous_iff_continuousAt]
  intro x
  exact (h.integrable.integrableOn.continuousOn_Iic_primitive_Iic (a₀ := x + 1)).continuousAt (Iic_mem_nhds (by linarith))

theorem levy_eq {m c : ℝ} (hc : 0 < c) : levyPDF m c = locScale m 1 (invGammaPDF (1 / 2) (c / 2)) := by
  ext x
  unfold locScale levyPDF invGammaPDF
  rw [div_one, div_one]
  by_cases hx : x ≤ m
  · rw [if_pos hx, if_pos (by linarith)]
  · rw [if_neg hx, if_neg (by linarith)]
    have hx : 0 < x - m := by linarith [not_le.1 hx]
    have hp : 0 < π := pi_pos
    rw [Real.Gamma_one_half_eq, show (-(1/2) - 1 : ℝ) = -(3 / 2) by norm_num, Real.rpow_neg hx.le, ← Real.sqrt_eq_rpow,
      show c / (2 * π) = (c / 2) / π by field_simp, Real.sqrt_div (by positivity)]
    rw [show -(c / 2) / (x - m) = -c / (2 * (x - m)) by field_simp]
    ring

theorem levy_density {m c : ℝ} (hc : 0 < c) : IsCDF (levyCDF m c) ∧ IsDensityOf (levyPDF m c) (levyCDF m c) := by
  have key := half_density (a := m) (G := fun x => 1 - erf (√(c / (2 * (x - m)))))
    (g := fun x => √(c / (2 * π)) * Real.exp (-c / (2 * (x - m))) / (x - m) ^ (3 / 2 : ℝ)) (fun x hx => ?_) (fun x hx => ?_) ?_ ?_
  · exact key
  · have hx : 0 < x - m := by linarith
    have hq : 0 < c / (2 * (x - m)) := by positivity
    have h1 : HasDerivAt (fun x : ℝ => c / (2 * (x - m))) (-(c / 2) / (x - m) ^ 2) x := by
      have := (((hasDerivAt_id x).sub_const m).const_mul 2).inv (by simp; linarith)
      refine HasDerivAt.congr_deriv (f := fun x : ℝ => c / (2 * (x - m))) (this.const_mul c) ?_
      simp only [id]; field_simp
    have h2 := ((erf_hasDerivAt _).comp x (h1.sqrt hq.ne')).const_sub 1
    refine HasDerivAt.congr_deriv (f := fun x => 1 - erf (√(c / (2 * (x - m))))) h2 ?_
    rw [Real.sq_sqrt hq.le, show -(c / (2 * (x - m))) = -c / (2 * (x - m)) by ring]
    have e3 : (x - m) ^ (3 / 2 : ℝ) = (x - m) * √(x - m) := by
      rw [show (3 / 2 : ℝ) = 1 + 1 / 2 by norm_num, Real.rpow_add hx, Real.rpow_one, ← Real.sqrt_eq_rpow]
    rw [e3, Real.sqrt_div hc.le, Real.sqrt_div hc.le, Real.sqrt_mul (by norm_num) (x - m), Real.sqrt_mul (by norm_num) π]
    have hc2 : √c * √c = c := Real.mul_self_sqrt hc.le
    have hx2 : √(x - m) * √(x - m) = x - m := Real.mul_self_sqrt hx.le
    have h22 : √2 * √2 = (2:ℝ) := Real.mul_self_sqrt (by norm_num)
    have := Real.sqrt_pos.2 hc; have := Real.sqrt_pos.2 hx; have := Real.sqrt_pos.2 pi_pos
    have : 0 < √(2:ℝ) := by positivity
    generalize Real.exp (-c / (2 * (x - m))) = E
    generalize √(x - m) = a at *
    generalize √c = b at *
    generalize √(2:ℝ) = d at *
    rw [← hx2, ← hc2]
    field_simp
    linear_combination E * h22
  · have hx : 0 < x - m := by linarith
    positivity
  · have h1 : Tendsto (fun x : ℝ => c / (2 * (x - m))) (𝓝[>] m) atTop := by
      have h2 : Tendsto (fun x : ℝ => 2 * (x - m)) (𝓝[>] m) (𝓝[>] 0) := by
        refine tendsto_nhdsWithin_iff.2 ⟨?_, ?_⟩
        · have : Tendsto (fun x : ℝ => 2 * (x - m)) (𝓝 m) (𝓝 (2 * (m - m))) := Continuous.tendsto (by fun_prop) m
          rw [sub_self, mul_zero] at this
          exact this.mono_left nhdsWithin_le_nhds
        · filter_upwards [self_mem_nhdsWithin] with x hx
          have : m < x := hx
          exact mem_Ioi.2 (by linarith)
      exact (tendsto_inv_nhdsGT_zero.comp h2).const_mul_atTop hc
    have := (erf_tendsto_top.comp (Real.tendsto_sqrt_atTop.comp h1)).const_sub 1
    rw [sub_self] at this; exact this
  · have h1 : Tendsto (fun x : ℝ => c / (2 * (x - m))) atTop (𝓝 0) := by
      refine Tendsto.const_div_atTop ?_ c
      exact (tendsto_atTop_add_const_right atTop (-m) tendsto_id).const_mul_atTop (by norm_num)
    have h2 : Continuous fun y : ℝ => erf (√y) :=
      (continuous_iff_continuousAt.2 fun x => (erf_hasDerivAt x).continuousAt).comp Real.continuous_sqrt
    have := ((h2.tendsto 0).comp h1).const_sub 1
    rw [Real.sqrt_zero, erf_zero, sub_zero] at this; exact this

theorem levy_no_moment {m c : ℝ} (hc : 0 < c) {k : ℕ} (hk : 0 < k) (a v : ℝ) : ¬ HasCentral (levyPDF m c) a k v := by
  rw [levy_eq hc]
  have : (1:ℝ) ≤ k := by exact_mod_cast hk
  exact locScale_no_central one_pos (invGamma_raw_infinite (by norm_num) (by positivity) (by linarith)) a v

theorem levy_entropy {m c : ℝ} (hc : 0 < c) :
    HasEntropy (levyPDF m c) ((1 + 3 * Real.eulerMascheroniConstant + Real.log (16 * π * c ^ 2)) / 2) := by
  have h := locScale_entropy (m := m) one_pos (invGamma_density (a := 1 / 2) (b := c / 2) (by norm_num) (by positivity)).2
    (invGamma_entropy (a := 1 / 2) (b := c / 2) (by norm_num) (by positivity))
  rw [← levy_eq hc] at h
  convert h using 1
  rw [digamma_half, Real.Gamma_one_half_eq, Real.log_one]
  have hp := pi_pos
  have h16 : Real.log (16:ℝ) = 4 * Real.log 2 := by
    rw [show (16:ℝ) = 2 ^ 4 by norm_num, Real.log_pow]; norm_num
  rw [Real.log_mul (by positivity) (by positivity), Real.log_mul (by norm_num) hp.ne', Real.log_mul (by positivity) (by positivity),
    Real.log_div hc.ne' (by norm_num), Real.log_sqrt hp.le, h16, Real.log_pow]
  push_cast; ring

/-- the mode, strictly: every other point has smaller density -/
theorem levy_mode {m c x : ℝ} (hc : 0 < c) (hx : x ≠ m + c / 3) : levyPDF m c x < levyPDF m c (m + c / 3) := by
  have h0 : 0 < levyPDF m c (m + c / 3) := by
    unfold levyPDF
    rw [if_neg (by linarith)]
    have : 0 < m + c / 3 - m := by linarith
    have := pi_pos
    positivity
  by_cases hm : x ≤ m
  · unfold levyPDF at *; rw [if_pos hm]; exact h0
  · have hy : 0 < x - m := by linarith [not_le.1 hm]
    unfold levyPDF
    rw [if_neg hm, if_neg (by linarith), mul_div_assoc, mul_div_assoc]
    have := pi_pos
    refine mul_lt_mul_of_pos_left ?_ (by positivity)
    have hc3 : 0 < m + c / 3 - m := by linarith
    rw [← Real.log_lt_log_iff (by positivity) (by positivity), Real.log_div (by positivity) (by positivity),
      Real.log_div (by positivity) (by positivity), Real.log_exp, Real.log_exp, Real.log_rpow hy, Real.log_rpow hc3]
    -- with u = c / (3 (x-m)):  log u < u - 1
    have hu : 0 < c / (3 * (x - m)) := by positivity
    have hu1 : c / (3 * (x - m)) ≠ 1 := fun e => hx (by field_simp at e; linarith)
    have hl := Real.log_lt_sub_one_of_pos hu hu1
    rw [Real.log_div hc.ne' (by positivity), Real.log_mul (by norm_num) hy.ne'] at hl
    rw [show m + c / 3 - m = c / 3 by ring, Real.log_div hc.ne' (by norm_num)]
    have e1 : -c / (2 * (x - m)) = -(3 / 2) * (c / (3 * (x - m))) := by field_simp
    have e2 : -c / (2 * (c / 3)) = -(3 / 2) := by field_simp
    rw [e1, e2]
    linarith
end Rstat.Spec
