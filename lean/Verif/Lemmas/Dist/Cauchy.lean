import Verif.Lemmas.Moments
import Verif.Spec.Families
import Mathlib.Probability.Distributions.Cauchy
import Mathlib.Analysis.SpecialFunctions.Trigonometric.ArctanDeriv
import Mathlib.Analysis.SpecialFunctions.Integrals.LogTrigonometric
import Mathlib.MeasureTheory.Function.JacobianOneDim

namespace Rstat.Spec
open MeasureTheory Filter Topology Set Real ProbabilityTheory

theorem cauchy_density (x₀ : ℝ) {γ : ℝ} (hγ : 0 < γ) :
    IsCDF (cauchyCDF x₀ γ) ∧ IsDensityOf (cauchyDensity x₀ γ) (cauchyCDF x₀ γ) := by
  have t1 : Tendsto (fun x : ℝ => (x - x₀) / γ) atTop atTop :=
    (tendsto_atTop_add_const_right _ (-x₀) tendsto_id).atTop_div_const hγ
  have t2 : Tendsto (fun x : ℝ => (x - x₀) / γ) atBot atBot :=
    (tendsto_atBot_add_const_right _ (-x₀) tendsto_id).atBot_div_const hγ
  refine line_density (fun x => ?_) (fun x => ?_) ?_ ?_
  · have h1 : HasDerivAt (fun x => (x - x₀) / γ) (1 / γ) x := ((hasDerivAt_id x).sub_const x₀).div_const γ
    have h2 := ((h1.arctan).div_const π).const_add (1 / 2)
    refine HasDerivAt.congr_deriv (f := cauchyCDF x₀ γ) h2 ?_
    unfold cauchyDensity
    have : 1 + ((x - x₀) / γ) ^ 2 ≠ 0 := by positivity
    field_simp
  · unfold cauchyDensity; positivity
  · have h := ((tendsto_nhds_of_tendsto_nhdsWithin tendsto_arctan_atBot).comp t2).div_const π |>.const_add (1 / 2)
    rw [show 1 / 2 + -(π / 2) / π = 0 by field_simp; ring] at h
    exact h
  · have h := ((tendsto_nhds_of_tendsto_nhdsWithin tendsto_arctan_atTop).comp t1).div_const π |>.const_add (1 / 2)
    rw [show 1 / 2 + (π / 2) / π = 1 by field_simp; ring] at h
    exact h

theorem cauchyDensity_mathlib (x₀ : ℝ) {γ : ℝ} (hγ : 0 < γ) : cauchyDensity x₀ γ = cauchyPDFReal x₀ γ.toNNReal := by
  ext x
  rw [cauchyPDFReal_def', Real.coe_toNNReal _ hγ.le, cauchyDensity]
  rw [NNReal.coe_inv, Real.coe_toNNReal _ hγ.le]
  rw [one_div, mul_inv, mul_inv]

theorem law_cauchy (x₀ : ℝ) {γ : ℝ} (hγ : 0 < γ) : Law (cauchyDensity x₀ γ) = cauchyMeasure x₀ γ.toNNReal := by
  rw [cauchyMeasure_of_scale_ne_zero _ (by simpa using hγ), cauchyDensity_mathlib _ hγ]; rfl

theorem cauchy_locScale (x₀ : ℝ) {γ : ℝ} (hγ : 0 < γ) : cauchyDensity x₀ γ = locScale x₀ γ (cauchyDensity 0 1) := by
  ext x; unfold locScale cauchyDensity; rw [sub_zero, div_one, mul_one]
  have : 1 + ((x - x₀) / γ) ^ 2 ≠ 0 := by positivity
  field_simp

/-- the Cauchy law has no mean -/
theorem cauchy_no_mean : ¬ ∃ m, HasMean (cauchyDensity 0 1) m := by
  rintro ⟨m, h, _⟩
  have hlog : Tendsto (fun x : ℝ => Real.log (1 + x ^ 2) / (2 * π)) atTop atTop := by
    refine Tendsto.atTop_div_const (by positivity) (Real.tendsto_log_atTop.comp ?_)
    exact tendsto_atTop_add_const_left _ 1 (tendsto_pow_atTop two_ne_zero)
  have hd : ∀ x : ℝ, HasDerivAt (fun x : ℝ => Real.log (1 + x ^ 2) / (2 * π)) (x * cauchyDensity 0 1 x) x := by
    intro x
    have h1 : HasDerivAt (fun x : ℝ => 1 + x ^ 2) (2 * x) x := by
      simpa using (hasDerivAt_pow 2 x).const_add 1
    have h2 := (h1.log (by positivity)).div_const (2 * π)
    refine h2.congr_deriv ?_
    unfold cauchyDensity
    rw [sub_zero, div_one]
    have : 1 + x ^ 2 ≠ 0 := by positivity
    field_simp
  have hi : IntegrableOn (fun x => x * cauchyDensity 0 1 x) (Ioi 0) := h.integrableOn
  have h1 := intervalIntegral_tendsto_integral_Ioi 0 hi tendsto_id
  have h2 : ∀ b : ℝ, ∫ x in (0 : ℝ)..b, x * cauchyDensity 0 1 x = Real.log (1 + b ^ 2) / (2 * π) := by
    intro b
    rw [intervalIntegral.integral_eq_sub_of_hasDerivAt (fun x _ => hd x) h.intervalIntegrable]; simp
  simp only [id, h2] at h1
  exact not_tendsto_nhds_of_tendsto_atTop hlog _ h1

/-- entropy of the standard Cauchy law, by the substitution `x = tan θ` -/
theorem cauchy_std_entropy : HasEntropy (cauchyDensity 0 1) (Real.log (4 * π)) := by
  set s : Set ℝ := Ioo (-(π / 2)) (π / 2)
  have himg : tan '' s = univ := by
    ext y; simp only [mem_univ, iff_true]
    exact ⟨arctan y, ⟨neg_pi_div_two_lt_arctan y, arctan_lt_pi_div_two y⟩, tan_arctan y⟩
  have hder : ∀ x ∈ s, HasDerivWithinAt tan (1 / cos x ^ 2) s x := fun x hx =>
    (Real.hasDerivAt_tan_of_mem_Ioo hx).hasDerivWithinAt
  have hinj : InjOn tan s := injOn_tan
  have hcos : ∀ x ∈ s, 0 < cos x := fun x hx => cos_pos_of_mem_Ioo hx
  set g : ℝ → ℝ := fun x => cauchyDensity 0 1 x * Real.log (cauchyDensity 0 1 x)
  have hval : ∀ x ∈ s, |1 / cos x ^ 2| • g (tan x) = 1 / π * (2 * Real.log (cos x) - Real.log π) := by
    intro x hx
    have hc := hcos x hx
    have e : cauchyDensity 0 1 (tan x) = cos x ^ 2 / π := by
      unfold cauchyDensity
      rw [sub_zero, div_one, mul_one, tan_eq_sin_div_cos, div_pow]
      have : 1 + sin x ^ 2 / cos x ^ 2 = 1 / cos x ^ 2 := by
        field_simp; linarith [sin_sq_add_cos_sq x]
      rw [this]; field_simp
    simp only [g]
    rw [e, Real.log_div (by positivity) pi_ne_zero, Real.log_pow, abs_of_pos (by positivity), smul_eq_mul]
    push_cast; field_simp
  -- integrability of log cos
  have hlc : IntervalIntegrable (fun x => Real.log (cos x)) volume (-(π / 2)) (π / 2) := by
    have : IntervalIntegrable (fun x => Real.log (sin x)) volume 0 π := by
      have := intervalIntegrable_log_sin (a := 0) (b := π)
      exact this
    have h2 := this.comp_add_right (π / 2)
    rw [show 0 - π / 2 = -(π / 2) by ring, show π - π / 2 = π / 2 by ring] at h2
    simpa [sin_add_pi_div_two] using h2
  have hlc_val : ∫ x in (-(π / 2))..(π / 2), Real.log (cos x) = -Real.log 2 * π := by
    rw [← integral_log_sin_zero_pi]
    have := intervalIntegral.integral_comp_add_right (a := -(π / 2)) (b := π / 2) (fun x => Real.log (sin x)) (π / 2)
    rw [show -(π / 2) + π / 2 = 0 by ring, show π / 2 + π / 2 = π by ring] at this
    rw [← this]; simp [sin_add_pi_div_two]
  have hint : IntervalIntegrable (fun x => 1 / π * (2 * Real.log (cos x) - Real.log π)) volume (-(π / 2)) (π / 2) :=
    ((hlc.const_mul 2).sub intervalIntegrable_const).const_mul _
  have hle : -(π / 2) ≤ π / 2 := by linarith [pi_pos]
  have hion : IntegrableOn (fun x => |1 / cos x ^ 2| • g (tan x)) s := by
    refine IntegrableOn.congr_fun (f := fun x => 1 / π * (2 * Real.log (cos x) - Real.log π)) ?_ (fun x hx => (hval x hx).symm) measurableSet_Ioo
    exact ((intervalIntegrable_iff_integrableOn_Ioo_of_le hle).1 hint)
  constructor
  · have := (integrableOn_image_iff_integrableOn_abs_deriv_smul measurableSet_Ioo hder hinj g).2 hion
    rw [himg, integrableOn_univ] at this
    exact this
  · have h := integral_image_eq_integral_abs_deriv_smul measurableSet_Ioo hder hinj g
    rw [himg, setIntegral_univ] at h
    change -∫ x, g x = _
    rw [h, setIntegral_congr_fun measurableSet_Ioo hval, ← integral_Ioc_eq_integral_Ioo,
      ← intervalIntegral.integral_of_le hle, intervalIntegral.integral_const_mul,
      intervalIntegral.integral_sub (hlc.const_mul 2) intervalIntegrable_const, intervalIntegral.integral_const_mul,
      hlc_val, intervalIntegral.integral_const, smul_eq_mul, show (4 : ℝ) = 2 ^ 2 by norm_num, Real.log_mul (by norm_num) pi_ne_zero,
      Real.log_pow]
    push_cast; field_simp; ring

theorem cauchy_entropy (x₀ : ℝ) {γ : ℝ} (hγ : 0 < γ) : HasEntropy (cauchyDensity x₀ γ) (Real.log (4 * π * γ)) := by
  rw [cauchy_locScale x₀ hγ, Real.log_mul (by positivity) hγ.ne']
  exact locScale_entropy hγ (cauchy_density 0 one_pos).2 cauchy_std_entropy

end Rstat.Spec
