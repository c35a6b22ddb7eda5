import Verif.Lemmas.Law
import Verif.Float.ExactInst
import Mathlib.Probability.Distributions.Gaussian.Real
import Mathlib.MeasureTheory.Integral.Gamma
import Mathlib.Probability.Moments.Basic
import Mathlib.MeasureTheory.Measure.Lebesgue.Integral

/-! Facts on erf, Phi and Gaussian measures. -/
namespace Rstat.Spec
open MeasureTheory Filter Topology Set Real ProbabilityTheory

theorem erf_hasDerivAt (x : ℝ) : HasDerivAt erf (2 / √π * Real.exp (-x ^ 2)) x := by
  unfold erf
  refine HasDerivAt.const_mul _ ?_
  exact intervalIntegral.integral_hasDerivAt_right (erf_intervalIntegrable _ _)
    (Continuous.stronglyMeasurableAtFilter (by fun_prop) _ _) (by fun_prop)

theorem erf_neg (x : ℝ) : erf (-x) = - erf x := by
  unfold erf
  have h : ∫ t in (0:ℝ)..(-x), Real.exp (-t ^ 2) = - ∫ t in (0:ℝ)..x, Real.exp (-t ^ 2) := by
    have := intervalIntegral.integral_comp_neg (a := 0) (b := x) (f := fun t : ℝ => Real.exp (-t ^ 2))
    simp only [even_two.neg_pow, neg_zero] at this
    rw [this, intervalIntegral.integral_symm]
  rw [h]; ring

@[simp] theorem erf_zero : erf 0 = 0 := by simp [erf]

theorem erf_tendsto_top : Tendsto erf atTop (𝓝 1) := by
  have hi : IntegrableOn (fun t : ℝ => Real.exp (-t ^ 2)) (Ioi 0) := by
    have := (integrable_exp_neg_mul_sq (b := 1) one_pos).integrableOn (s := Ioi 0)
    simpa using this
  have h := intervalIntegral_tendsto_integral_Ioi 0 hi tendsto_id
  have h2 : ∫ t in Ioi (0:ℝ), Real.exp (-t ^ 2) = √π / 2 := by
    have := integral_gaussian_Ioi 1; simpa using this
  rw [h2] at h
  have h3 := h.const_mul (2 / √π)
  have e : 2 / √π * (√π / 2) = 1 := by
    have : √π ≠ 0 := (sqrt_pos.2 pi_pos).ne'
    field_simp
  rw [e] at h3
  exact h3

theorem erf_tendsto_bot : Tendsto erf atBot (𝓝 (-1)) := by
  have h : (erf) = fun x => - erf (-x) := by ext x; rw [erf_neg]; ring
  rw [h]
  exact (erf_tendsto_top.comp tendsto_neg_atBot_atTop).neg

theorem Phi_hasDerivAt (x : ℝ) : HasDerivAt Phi (Real.exp (-x ^ 2 / 2) / √(2 * π)) x := by
  have h := ((((erf_hasDerivAt (x / √2)).comp x ((hasDerivAt_id x).div_const (√2))).const_add 1).div_const 2)
  have e : 2 / √π * Real.exp (-(x / √2) ^ 2) * (1 / √2) / 2 = Real.exp (-x ^ 2 / 2) / √(2 * π) := by
    rw [div_pow, Real.sq_sqrt (by norm_num), Real.sqrt_mul (by norm_num), neg_div]
    have h1 : √π ≠ 0 := (sqrt_pos.2 pi_pos).ne'
    have h2 : √(2:ℝ) ≠ 0 := by positivity
    field_simp
  rw [e] at h
  exact h

theorem Phi_tendsto_top : Tendsto Phi atTop (𝓝 1) := by
  have : Tendsto (fun x : ℝ => x / √2) atTop atTop := tendsto_id.atTop_div_const (by positivity)
  have h := ((erf_tendsto_top.comp this).const_add 1).div_const 2
  norm_num at h
  exact h
theorem Phi_tendsto_bot : Tendsto Phi atBot (𝓝 0) := by
  have : Tendsto (fun x : ℝ => x / √2) atBot atBot := tendsto_id.atBot_div_const (by positivity)
  have h := ((erf_tendsto_bot.comp this).const_add 1).div_const 2
  norm_num at h
  exact h
theorem Phi_neg (x : ℝ) : Phi (-x) = 1 - Phi x := by unfold Phi; rw [neg_div, erf_neg]; ring
@[simp] theorem Phi_zero : Phi 0 = 1 / 2 := by simp [Phi]

theorem Phi_mem (x : ℝ) : 0 < Phi x ∧ Phi x < 1 := by
  constructor
  · exact lt_of_le_of_lt (Phi_strictMono.monotone.le_of_tendsto Phi_tendsto_bot (x - 1)) (Phi_strictMono (by linarith))
  · exact lt_of_lt_of_le (Phi_strictMono (show x < x + 1 by linarith)) (Phi_strictMono.monotone.ge_of_tendsto Phi_tendsto_top _)

theorem Phi_continuous : Continuous Phi := continuous_iff_continuousAt.2 fun x => (Phi_hasDerivAt x).continuousAt

/-- a monotone continuous function with limits 0 and 1 attains everything in between -/
theorem exists_eq_of_limits {F : ℝ → ℝ} (hc : Continuous F) (h0 : Tendsto F atBot (𝓝 0)) (h1 : Tendsto F atTop (𝓝 1))
    {p : ℝ} (hp : 0 < p) (hp1 : p < 1) : ∃ x, F x = p := by
  obtain ⟨a, ha⟩ := (h0.eventually_lt_const hp).exists
  obtain ⟨b, hb⟩ := (h1.eventually_const_lt hp1).exists
  exact mem_range_of_exists_le_of_exists_ge hc ⟨a, ha.le⟩ ⟨b, hb.le⟩

theorem Phi_surj {p : ℝ} (hp : 0 < p) (hp1 : p < 1) : ∃ x, Phi x = p :=
  exists_eq_of_limits Phi_continuous Phi_tendsto_bot Phi_tendsto_top hp hp1

/-- density of N(μ, v) and its distribution function -/
theorem normal_density (μ : ℝ) {v : ℝ} (hv : 0 < v) :
    IsCDF (fun x => Phi ((x - μ) / √v)) ∧
    IsDensityOf (gaussianPDFReal μ v.toNNReal) (fun x => Phi ((x - μ) / √v)) := by
  have hs : 0 < √v := sqrt_pos.2 hv
  refine line_density (fun x => ?_) (fun x => gaussianPDFReal_nonneg _ _ _) ?_ ?_
  · have h := (Phi_hasDerivAt ((x - μ) / √v)).comp x (((hasDerivAt_id x).sub_const μ).div_const (√v))
    refine HasDerivAt.congr_deriv (f := fun x => Phi ((x - μ) / √v)) h ?_
    simp only [gaussianPDFReal]
    have h3 : √(2 * π * v) = √(2 * π) * √v := Real.sqrt_mul (by positivity) v
    rw [Real.coe_toNNReal _ hv.le, h3, div_pow, Real.sq_sqrt hv.le]
    have : √(2 * π) ≠ 0 := by positivity
    have e : -(x - μ) ^ 2 / (2 * v) = -((x - μ) ^ 2 / v) / 2 := by field_simp
    rw [e]
    generalize √(2 * π) = c at *
    field_simp
  · refine Phi_tendsto_bot.comp ?_
    exact (tendsto_atBot_add_const_right atBot (-μ) tendsto_id).atBot_div_const hs
  · refine Phi_tendsto_top.comp ?_
    exact (tendsto_atTop_add_const_right atTop (-μ) tendsto_id).atTop_div_const hs

theorem law_gaussian (μ : ℝ) {v : ℝ} (hv : 0 < v) : Law (gaussianPDFReal μ v.toNNReal) = gaussianReal μ v.toNNReal := by
  rw [gaussianReal_of_var_ne_zero _ (by simpa using hv)]; rfl

theorem cdf_gaussian (μ : ℝ) {v : ℝ} (hv : 0 < v) (x : ℝ) :
    cdf (gaussianReal μ v.toNNReal) x = Phi ((x - μ) / √v) := by
  rw [← law_gaussian μ hv]; exact (normal_density μ hv).2.cdf_law x

/-- even moments: ∫ |x|^s exp(-x²/2) over the line -/
theorem integral_pow4_gauss : ∫ x : ℝ, x ^ 4 * Real.exp (-x ^ 2 / 2) = 3 * √(2 * π) := by
  have h1 : ∫ x : ℝ, x ^ 4 * Real.exp (-x ^ 2 / 2) = 2 * ∫ x in Ioi (0:ℝ), x ^ 4 * Real.exp (-x ^ 2 / 2) := by
    have := integral_comp_abs (f := fun x : ℝ => x ^ 4 * Real.exp (-x ^ 2 / 2))
    rw [← this]; congr 1; ext x
    rw [sq_abs, show |x| ^ 4 = x ^ 4 by rw [show (4:ℕ) = 2 * 2 by norm_num, pow_mul, sq_abs, ← pow_mul]]
  have h2 := integral_rpow_mul_exp_neg_mul_rpow (p := 2) (q := 4) (b := 1 / 2) (by norm_num) (by norm_num) (by norm_num)
  have h3 : ∫ x in Ioi (0:ℝ), x ^ 4 * Real.exp (-x ^ 2 / 2) =
      ∫ x in Ioi (0:ℝ), x ^ (4:ℝ) * Real.exp (-(1 / 2) * x ^ (2:ℝ)) := by
    refine setIntegral_congr_fun measurableSet_Ioi fun x hx => ?_
    simp only [Real.rpow_ofNat]
    congr 2; ring
  rw [h1, h3, h2]
  have hG : Real.Gamma ((4 + 1) / 2) = 3 / 4 * √π := by
    have e : ((4:ℝ) + 1) / 2 = (1 / 2 + 1) + 1 := by norm_num
    rw [e, Real.Gamma_add_one (by norm_num), Real.Gamma_add_one (by norm_num), Real.Gamma_one_half_eq]; ring
  have hp : ((1:ℝ) / 2) ^ (-(4 + 1) / 2 : ℝ) = 4 * √2 := by
    rw [one_div, Real.inv_rpow (by norm_num), ← Real.rpow_neg (by norm_num)]
    have : (-(-(4 + 1) / 2) : ℝ) = 2 + 1 / 2 := by norm_num
    rw [this, Real.rpow_add (by norm_num), ← Real.sqrt_eq_rpow]; norm_num
  rw [hG, hp, Real.sqrt_mul (by norm_num)]; ring


theorem gaussian_eq_map (μ : ℝ) {v : ℝ} (hv : 0 < v) :
    gaussianReal μ v.toNNReal = (gaussianReal 0 1).map (fun z => √v * z + μ) := by
  have h1 : (fun z : ℝ => √v * z + μ) = (fun x => x + μ) ∘ (fun z => √v * z) := rfl
  rw [h1, ← Measure.map_map (by fun_prop) (by fun_prop), gaussianReal_map_const_mul, gaussianReal_map_add_const]
  congr 1
  · simp
  · rw [mul_one]; apply NNReal.coe_injective; simp [Real.coe_toNNReal _ hv.le, Real.sq_sqrt hv.le]

theorem integral_std (f : ℝ → ℝ) : ∫ x, f x ∂gaussianReal 0 1 = ∫ x, f x * (Real.exp (-x ^ 2 / 2) / √(2 * π)) := by
  rw [integral_gaussianReal_eq_integral_smul (by norm_num)]
  congr 1; ext x
  simp only [gaussianPDFReal, smul_eq_mul, NNReal.coe_one, mul_one, sub_zero]; ring

theorem std_moment4 : ∫ x, x ^ 4 ∂gaussianReal 0 1 = 3 := by
  rw [integral_std]
  simp_rw [← mul_div_assoc]
  rw [integral_div, integral_pow4_gauss]
  have : √(2 * π) ≠ 0 := by positivity
  field_simp

theorem std_moment3 : ∫ x, x ^ 3 ∂gaussianReal 0 1 = 0 := by
  have h : ∫ x, x ^ 3 ∂gaussianReal 0 1 = ∫ x, (-x) ^ 3 ∂gaussianReal 0 1 := by
    conv_lhs => rw [show gaussianReal 0 1 = (gaussianReal 0 1).map (fun x => -x) by rw [gaussianReal_map_neg, neg_zero]]
    rw [integral_map (by fun_prop) (by fun_prop)]
  simp_rw [Odd.neg_pow (by decide : Odd 3)] at h
  rw [integral_neg] at h
  linarith

theorem gaussian_centralMoment (μ : ℝ) {v : ℝ} (hv : 0 < v) (k : ℕ) :
    centralMoment id k (gaussianReal μ v.toNNReal) = √v ^ k * ∫ x, x ^ k ∂gaussianReal 0 1 := by
  unfold centralMoment
  simp only [Pi.pow_apply, Pi.sub_apply, id_eq, integral_id_gaussianReal]
  rw [gaussian_eq_map μ hv, integral_map (by fun_prop) (by fun_prop), ← integral_const_mul]
  congr 1; ext z; ring

theorem gaussian_skew (μ : ℝ) {v : ℝ} (hv : 0 < v) : centralMoment id 3 (gaussianReal μ v.toNNReal) = 0 := by
  rw [gaussian_centralMoment μ hv, std_moment3, mul_zero]
theorem gaussian_kurt (μ : ℝ) {v : ℝ} (hv : 0 < v) : centralMoment id 4 (gaussianReal μ v.toNNReal) = 3 * v ^ 2 := by
  rw [gaussian_centralMoment μ hv, std_moment4, show √v ^ 4 = (√v ^ 2) ^ 2 by ring, Real.sq_sqrt hv.le]; ring

theorem std_integrable_pow (k : ℕ) : Integrable (fun x : ℝ => x ^ k) (gaussianReal 0 1) := by
  have h : (0 : ℝ) ∈ interior (integrableExpSet id (gaussianReal 0 1)) := by
    rw [integrableExpSet_id_gaussianReal, interior_univ]; trivial
  exact integrable_pow_of_mem_interior_integrableExpSet h k

theorem std_moment1 : ∫ x, x ∂gaussianReal 0 1 = 0 := integral_id_gaussianReal
theorem std_moment2 : ∫ x, x ^ 2 ∂gaussianReal 0 1 = 1 := by
  have h := variance_id_gaussianReal (μ := 0) (v := 1)
  rw [variance_eq_integral (by fun_prop)] at h
  simpa [integral_id_gaussianReal] using h

/-- integrals against the Gaussian density, standardised -/
theorem integral_gauss_std (μ : ℝ) {v : ℝ} (hv : 0 < v) (g : ℝ → ℝ) (hg : Measurable g) :
    (Integrable (fun x => g x * gaussianPDFReal μ v.toNNReal x) ↔
      Integrable (fun z => g (√v * z + μ)) (gaussianReal 0 1)) ∧
    ∫ x, g x * gaussianPDFReal μ v.toNNReal x = ∫ z, g (√v * z + μ) ∂gaussianReal 0 1 := by
  have hv' : v.toNNReal ≠ 0 := by simpa using hv
  have e1 : ∫ x, g x * gaussianPDFReal μ v.toNNReal x = ∫ x, g x ∂gaussianReal μ v.toNNReal := by
    rw [integral_gaussianReal_eq_integral_smul hv']
    congr 1; ext x; rw [smul_eq_mul, mul_comm]
  have e2 : Integrable g (gaussianReal μ v.toNNReal) ↔ Integrable (fun x => g x * gaussianPDFReal μ v.toNNReal x) := by
    rw [gaussianReal_of_var_ne_zero _ hv', integrable_withDensity_iff (measurable_gaussianPDF _ _)
      (Filter.Eventually.of_forall fun x => gaussianPDF_lt_top)]
    simp only [toReal_gaussianPDF]
  constructor
  · rw [← e2, gaussian_eq_map μ hv, integrable_map_measure (by fun_prop) (by fun_prop)]
    rfl
  · rw [e1, gaussian_eq_map μ hv, integral_map (by fun_prop) (by fun_prop)]

/-- standard Gaussian integral of a quartic polynomial -/
theorem std_poly (c0 c1 c2 c3 c4 : ℝ) :
    Integrable (fun z : ℝ => c0 + c1 * z + c2 * z ^ 2 + c3 * z ^ 3 + c4 * z ^ 4) (gaussianReal 0 1) ∧
    ∫ z, (c0 + c1 * z + c2 * z ^ 2 + c3 * z ^ 3 + c4 * z ^ 4) ∂gaussianReal 0 1 = c0 + c2 + 3 * c4 := by
  have i1 : Integrable (fun z : ℝ => c1 * z) (gaussianReal 0 1) := by simpa using (std_integrable_pow 1).const_mul c1
  have i2 := (std_integrable_pow 2).const_mul c2
  have i3 := (std_integrable_pow 3).const_mul c3
  have i4 := (std_integrable_pow 4).const_mul c4
  have i0 : Integrable (fun _ : ℝ => c0) (gaussianReal 0 1) := integrable_const _
  have j1 : Integrable (fun z : ℝ => c0 + c1 * z) (gaussianReal 0 1) := i0.add i1
  have j2 : Integrable (fun z : ℝ => c0 + c1 * z + c2 * z ^ 2) (gaussianReal 0 1) := j1.add i2
  have j3 : Integrable (fun z : ℝ => c0 + c1 * z + c2 * z ^ 2 + c3 * z ^ 3) (gaussianReal 0 1) := j2.add i3
  refine ⟨j3.add i4, ?_⟩
  rw [integral_add j3 i4, integral_add j2 i3, integral_add j1 i2, integral_add i0 i1, integral_const_mul, integral_const_mul, integral_const_mul,
    integral_const_mul, std_moment1, std_moment2, std_moment3, std_moment4]
  simp; ring

theorem log_gaussianPDF (μ : ℝ) {v : ℝ} (hv : 0 < v) (x : ℝ) :
    Real.log (gaussianPDFReal μ v.toNNReal x) = -(1 / 2 * Real.log (2 * π * v)) - (x - μ) ^ 2 / (2 * v) := by
  simp only [gaussianPDFReal]
  rw [Real.coe_toNNReal _ hv.le, Real.log_mul (by positivity) (by positivity), Real.log_exp, Real.log_inv,
    Real.log_sqrt (by positivity)]
  ring

theorem normal_entropy (μ : ℝ) {v : ℝ} (hv : 0 < v) :
    HasEntropy (gaussianPDFReal μ v.toNNReal) (1 / 2 * Real.log (2 * π * Real.exp 1 * v)) := by
  have hs : 0 < √v := sqrt_pos.2 hv
  have e : (fun x => gaussianPDFReal μ v.toNNReal x * Real.log (gaussianPDFReal μ v.toNNReal x)) =
      fun x => (-(1 / 2 * Real.log (2 * π * v)) - (x - μ) ^ 2 / (2 * v)) * gaussianPDFReal μ v.toNNReal x := by
    ext x; rw [log_gaussianPDF μ hv]; ring
  obtain ⟨h1, h2⟩ := integral_gauss_std μ hv (fun x => -(1 / 2 * Real.log (2 * π * v)) - (x - μ) ^ 2 / (2 * v)) (by fun_prop)
  have e3 : (fun z => -(1 / 2 * Real.log (2 * π * v)) - (√v * z + μ - μ) ^ 2 / (2 * v)) =
      fun z : ℝ => -(1 / 2 * Real.log (2 * π * v)) + 0 * z + (-1 / 2) * z ^ 2 + 0 * z ^ 3 + 0 * z ^ 4 := by
    ext z; rw [add_sub_cancel_right, mul_pow, Real.sq_sqrt hv.le]; field_simp; ring
  obtain ⟨h3, h4⟩ := std_poly (-(1 / 2 * Real.log (2 * π * v))) 0 (-1 / 2) 0 0
  rw [e3] at h1 h2
  unfold HasEntropy
  rw [e]
  refine ⟨h1.2 h3, ?_⟩
  rw [h2, h4, show 2 * π * Real.exp 1 * v = 2 * π * v * Real.exp 1 by ring, Real.log_mul (x := 2 * π * v) (by positivity) (by positivity),
    Real.log_exp]
  ring

end Rstat.Spec
