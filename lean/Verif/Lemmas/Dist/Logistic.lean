import Verif.Lemmas.Reflection
import Verif.Lemmas.BetaFn
import Verif.Spec.Families
import Mathlib.Analysis.SpecialFunctions.Integrals.Basic

namespace Rstat.Spec
open MeasureTheory Filter Topology Set Real

theorem logistic_locScale (m : ℝ) {b : ℝ} (hb : 0 < b) : logisticPDF m b = locScale m b (logisticPDF 0 1) := by
  ext x; unfold locScale logisticPDF; simp only [neg_div, sub_zero, div_one, one_mul]
  have : 1 + rexp (-((x - m) / b)) ≠ 0 := by positivity
  field_simp
theorem logisticCDF_locScale (m : ℝ) {b : ℝ} (_hb : 0 < b) (x : ℝ) : logisticCDF m b x = logisticCDF 0 1 ((x - m) / b) := by
  unfold logisticCDF; simp only [neg_div, sub_zero, div_one]

theorem logistic_std_density : IsCDF (logisticCDF 0 1) ∧ IsDensityOf (logisticPDF 0 1) (logisticCDF 0 1) := by
  have e1 : logisticCDF 0 1 = fun x => 1 / (1 + rexp (-x)) := by ext x; simp [logisticCDF]
  have e2 : logisticPDF 0 1 = fun x => rexp (-x) / (1 + rexp (-x)) ^ 2 := by ext x; simp [logisticPDF]
  rw [e1, e2]
  refine line_density (fun x => ?_) (fun x => by positivity) ?_ ?_
  · have h1 : 1 + rexp (-x) ≠ 0 := by positivity
    have := ((hasDerivAt_neg x).exp.const_add 1).inv h1
    simp only [one_div]
    refine HasDerivAt.congr_deriv (f := fun x => (1 + rexp (-x))⁻¹) this ?_
    ring
  · have h : Tendsto (fun x : ℝ => 1 + rexp (-x)) atBot atTop :=
      tendsto_atTop_add_const_left _ 1 (Real.tendsto_exp_atTop.comp tendsto_neg_atBot_atTop)
    simpa only [one_div, Function.comp_def] using tendsto_inv_atTop_zero.comp h
  · have h : Tendsto (fun x : ℝ => 1 + rexp (-x)) atTop (𝓝 (1 + 0)) := Real.tendsto_exp_neg_atTop_nhds_zero.const_add 1
    have h2 := h.inv₀ (by norm_num)
    simpa only [one_div, add_zero, inv_one] using h2

theorem logistic_transfer (h : ℝ → ℝ) :
    (Integrable (fun x => h x * logisticPDF 0 1 x) ↔
      IntegrableOn (fun u => h (Real.log u - Real.log (1 - u)) * 1) (Ioo 0 1)) ∧
    ∫ x, h x * logisticPDF 0 1 x = ∫ u in Ioo 0 1, h (Real.log u - Real.log (1 - u)) * 1 := by
  have key : ∀ u ∈ Ioo (0:ℝ) 1, rexp (-(Real.log u - Real.log (1 - u))) = (1 - u) / u := fun u hu => by
    have h1 : 0 < 1 - u := by linarith [hu.2]
    rw [neg_sub, Real.exp_sub, Real.exp_log hu.1, Real.exp_log h1]
  refine transfer (T := Ioo 0 1) (φ := fun u => Real.log u - Real.log (1 - u)) (φ' := fun u => u⁻¹ + (1 - u)⁻¹) (g := fun _ => 1)
    measurableSet_Ioo (fun u hu => ?_) (fun x hx y hy hxy => ?_) (fun u hu => ?_) (Eventually.of_forall fun x hx => ?_) h
  · have h1 : 1 - u ≠ 0 := by linarith [hu.2]
    have := (Real.hasDerivAt_log hu.1.ne').sub (((hasDerivAt_id u).const_sub 1).log h1)
    refine HasDerivAt.congr_deriv (f := fun u => Real.log u - Real.log (1 - u)) this ?_
    simp only [id]; rw [neg_div, one_div, sub_neg_eq_add]
  · have e := congrArg (fun z => rexp (-z)) hxy
    simp only [key x hx, key y hy] at e
    rw [div_eq_div_iff hx.1.ne' hy.1.ne'] at e
    linarith
  · have h1 : 0 < 1 - u := by linarith [hu.2]
    have h0 := hu.1
    have h3 : 0 < u⁻¹ + (1 - u)⁻¹ := by positivity
    unfold logisticPDF
    rw [abs_of_pos h3, sub_zero, div_one, key u hu]
    have : 1 + (1 - u) / u ≠ 0 := by positivity
    field_simp
    ring_nf
  · refine absurd ⟨1 / (1 + rexp (-x)), ⟨by positivity, ?_⟩, ?_⟩ hx
    · rw [div_lt_one (by positivity)]; linarith [Real.exp_pos (-x)]
    · have e : 1 - 1 / (1 + rexp (-x)) = rexp (-x) / (1 + rexp (-x)) := by
        have : 1 + rexp (-x) ≠ 0 := by positivity
        field_simp; ring
      simp only
      rw [e, Real.log_div one_ne_zero (by positivity), Real.log_div (Real.exp_ne_zero _) (by positivity), Real.log_one,
        Real.log_exp]; ring

theorem logistic_mgf {s : ℝ} (hs : |s| < 1) : Integrable (fun x => rexp (s * x) * logisticPDF 0 1 x) ∧
    ∫ x, rexp (s * x) * logisticPDF 0 1 x = gammaRefl s := by
  obtain ⟨h1, h2⟩ := abs_lt.1 hs
  obtain ⟨b1, b2⟩ := beta_integral (a := 1 + s) (b := 1 - s) (by linarith) (by linarith)
  obtain ⟨t1, t2⟩ := logistic_transfer (fun x => rexp (s * x))
  have e : ∀ u ∈ Ioo (0:ℝ) 1, u ^ (1 + s - 1) * (1 - u) ^ (1 - s - 1) =
      rexp (s * (Real.log u - Real.log (1 - u))) * 1 := fun u hu => by
    have h1 : 0 < 1 - u := by linarith [hu.2]
    rw [rpow_def_of_pos hu.1, rpow_def_of_pos h1, ← Real.exp_add]; ring_nf
  refine ⟨t1.2 (IntegrableOn.congr_fun b1 e measurableSet_Ioo), ?_⟩
  rw [t2, ← setIntegral_congr_fun measurableSet_Ioo e, b2]
  unfold Beta gammaRefl
  rw [show 1 + s + (1 - s) = 2 by ring, Real.Gamma_two, div_one]

theorem gammaRefl_odd : iteratedDeriv 1 gammaRefl 0 = 0 ∧ iteratedDeriv 3 gammaRefl 0 = 0 := by
  constructor
  · rw [gammaRefl_eq_gamma]; simp [Finset.sum_range_succ]
  · rw [gammaRefl_eq_gamma]; simp [Finset.sum_range_succ]; ring

theorem logistic_std_moments : HasMeanVar (logisticPDF 0 1) 0 (π ^ 2 / 3) ∧ HasSkew (logisticPDF 0 1) 0 ∧
    HasKurt (logisticPDF 0 1) (21 / 5) := by
  have hd := logistic_std_density.2
  have hm := moments_of_mgf hd one_pos (M := gammaRefl) fun s hs => logistic_mgf hs
  have h1 : HasMean (logisticPDF 0 1) 0 := hasMean_iff_raw.2 ((hm 1).congr_val gammaRefl_odd.1)
  have h2 := (hm 2).congr_val gammaRefl_derivs.2.1
  refine ⟨⟨h1, h2⟩, ⟨0, π ^ 2 / 3, by positivity, ⟨h1, h2⟩, (hm 3).congr_val (by rw [gammaRefl_odd.2, zero_mul])⟩,
    ⟨0, π ^ 2 / 3, by positivity, ⟨h1, h2⟩, (hm 4).congr_val ?_⟩⟩
  rw [gammaRefl_derivs.2.2]; ring

theorem log_Ioo : IntegrableOn Real.log (Ioo 0 1) ∧ ∫ u in Ioo (0:ℝ) 1, Real.log u = -1 := by
  constructor
  · rw [← intervalIntegrable_iff_integrableOn_Ioo_of_le zero_le_one]
    exact intervalIntegral.intervalIntegrable_log'
  · rw [← integral_Ioc_eq_integral_Ioo, ← intervalIntegral.integral_of_le zero_le_one, integral_log]; simp

theorem log_Ioo' : IntegrableOn (fun u => Real.log (1 - u)) (Ioo 0 1) ∧ ∫ u in Ioo (0:ℝ) 1, Real.log (1 - u) = -1 := by
  have h : IntervalIntegrable Real.log volume 0 1 := intervalIntegral.intervalIntegrable_log'
  have h2 := h.comp_sub_left 1
  simp only [sub_zero, sub_self] at h2
  constructor
  · rw [← intervalIntegrable_iff_integrableOn_Ioo_of_le zero_le_one]
    exact h2.symm
  · rw [← integral_Ioc_eq_integral_Ioo, ← intervalIntegral.integral_of_le zero_le_one]
    rw [intervalIntegral.integral_comp_sub_left (fun u => Real.log u) 1, sub_zero, sub_self, integral_log]; simp

theorem logistic_std_entropy : HasEntropy (logisticPDF 0 1) 2 := by
  obtain ⟨t1, t2⟩ := logistic_transfer (fun x => Real.log (logisticPDF 0 1 x))
  have e : ∀ u ∈ Ioo (0:ℝ) 1, Real.log u + Real.log (1 - u) =
      Real.log (logisticPDF 0 1 (Real.log u - Real.log (1 - u))) * 1 := fun u hu => by
    have h1 : 0 < 1 - u := by linarith [hu.2]
    have h0 := hu.1
    have key : logisticPDF 0 1 (Real.log u - Real.log (1 - u)) = u * (1 - u) := by
      unfold logisticPDF
      rw [sub_zero, div_one, neg_sub, Real.exp_sub, Real.exp_log hu.1, Real.exp_log h1]
      have : 1 + (1 - u) / u ≠ 0 := by positivity
      field_simp
      ring_nf
    rw [key, Real.log_mul h0.ne' h1.ne', mul_one]
  have j : IntegrableOn (fun u => Real.log u + Real.log (1 - u)) (Ioo 0 1) := log_Ioo.1.add log_Ioo'.1
  have c : (fun x => logisticPDF 0 1 x * Real.log (logisticPDF 0 1 x)) = fun x => Real.log (logisticPDF 0 1 x) * logisticPDF 0 1 x := by
    ext x; ring
  unfold HasEntropy
  rw [c]
  refine ⟨t1.2 (IntegrableOn.congr_fun j e measurableSet_Ioo), ?_⟩
  rw [t2, ← setIntegral_congr_fun measurableSet_Ioo e, integral_add log_Ioo.1 log_Ioo'.1, log_Ioo.2, log_Ioo'.2]; norm_num

theorem logistic_density (m : ℝ) {b : ℝ} (hb : 0 < b) :
    IsCDF (logisticCDF m b) ∧ IsDensityOf (logisticPDF m b) (logisticCDF m b) := by
  rw [logistic_locScale m hb, show logisticCDF m b = fun x => logisticCDF 0 1 ((x - m) / b) from
    funext (logisticCDF_locScale m hb)]
  exact ⟨locScale_isCDF hb logistic_std_density.1, locScale_density hb logistic_std_density.2⟩

theorem logistic_moments (m : ℝ) {b : ℝ} (hb : 0 < b) :
    HasMeanVar (logisticPDF m b) m (b ^ 2 * (π ^ 2 / 3)) ∧ HasSkew (logisticPDF m b) 0 ∧
    HasKurt (logisticPDF m b) (21 / 5) ∧ HasEntropy (logisticPDF m b) (2 + Real.log b) := by
  have hd := logistic_std_density.2
  obtain ⟨h1, h2, h3⟩ := logistic_std_moments
  rw [logistic_locScale m hb]
  refine ⟨?_, locScale_skew hb hd h2, locScale_kurt hb hd h3, locScale_entropy hb hd logistic_std_entropy⟩
  have := locScale_meanVar (m := m) hb hd h1
  rwa [mul_zero, add_zero] at this

end Rstat.Spec
