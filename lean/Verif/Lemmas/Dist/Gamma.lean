import Verif.Lemmas.Moments
import Verif.Spec.Special
import Verif.Spec.GammaFamilies
import Mathlib.Probability.Distributions.Gamma
import Mathlib.Analysis.SpecialFunctions.Gamma.Basic
import Mathlib.MeasureTheory.Integral.IntervalIntegral.FundThmCalculus

namespace Rstat.Spec
open MeasureTheory Filter Topology Set Real ProbabilityTheory

theorem gamma_integrableOn {a : ℝ} (ha : 0 < a) : IntegrableOn (fun t : ℝ => t ^ (a - 1) * rexp (-t)) (Ioi 0) :=
  (Real.GammaIntegral_convergent ha).congr_fun (fun t _ => mul_comm _ _) measurableSet_Ioi

theorem gamma_intervalIntegrable {a : ℝ} (ha : 0 < a) {x : ℝ} (hx : 0 ≤ x) :
    IntervalIntegrable (fun t : ℝ => t ^ (a - 1) * rexp (-t)) volume 0 x :=
  (intervalIntegrable_iff_integrableOn_Ioc_of_le hx).2 ((gamma_integrableOn ha).mono_set Ioc_subset_Ioi_self)

theorem gammaP_hasDerivAt {a x : ℝ} (ha : 0 < a) (hx : 0 < x) :
    HasDerivAt (gammaP a) (x ^ (a - 1) * rexp (-x) / Real.Gamma a) x := by
  have hc : ContinuousAt (fun t : ℝ => t ^ (a - 1) * rexp (-t)) x :=
    (Real.continuousAt_rpow_const _ _ (Or.inl hx.ne')).mul (by fun_prop)
  have h := intervalIntegral.integral_hasDerivAt_right (gamma_intervalIntegrable ha hx.le)
    (f := fun t : ℝ => t ^ (a - 1) * rexp (-t))
    (Measurable.aestronglyMeasurable (by fun_prop)).stronglyMeasurableAtFilter hc
  exact h.div_const _

theorem gammaP_zero (a : ℝ) : gammaP a 0 = 0 := by simp [gammaP]

theorem gammaP_tendsto_zero {a : ℝ} (ha : 0 < a) : Tendsto (gammaP a) (𝓝[>] 0) (𝓝 0) := by
  have h := intervalIntegral.continuousOn_primitive_interval' (gamma_intervalIntegrable ha zero_le_one)
    (left_mem_uIcc (a := (0 : ℝ)) (b := 1))
  have h0 := (h 0 left_mem_uIcc).tendsto
  rw [intervalIntegral.integral_same, uIcc_of_le zero_le_one] at h0
  have h1 := (h0.mono_left (nhdsWithin_mono 0 Ioc_subset_Icc_self)).div_const (Real.Gamma a)
  rw [zero_div, nhdsWithin_Ioc_eq_nhdsGT one_pos] at h1
  exact h1

theorem gammaP_tendsto_one {a : ℝ} (ha : 0 < a) : Tendsto (gammaP a) atTop (𝓝 1) := by
  have h := intervalIntegral_tendsto_integral_Ioi 0 (gamma_integrableOn ha) tendsto_id
  have h1 := h.div_const (Real.Gamma a)
  have e : ∫ t in Ioi (0 : ℝ), t ^ (a - 1) * rexp (-t) = Real.Gamma a := by
    rw [Real.Gamma_eq_integral ha]; congr 1; ext t; ring
  rw [e, div_self (Real.Gamma_pos_of_pos ha).ne'] at h1
  exact h1

theorem gamma_std_density {a : ℝ} (ha : 0 < a) :
    IsCDF (gammaCDF a 1) ∧ IsDensityOf (gammaPDFReal a 1) (gammaCDF a 1) := by
  have hG := Real.Gamma_pos_of_pos ha
  have h := half_density (a := 0) (G := gammaP a) (g := fun x => x ^ (a - 1) * rexp (-x) / Real.Gamma a)
    (fun x hx => gammaP_hasDerivAt ha hx) (fun x hx => by positivity) (gammaP_tendsto_zero ha) (gammaP_tendsto_one ha)
  have e : gammaCDF a 1 = halfCDF 0 (gammaP a) := by ext x; simp [gammaCDF, halfCDF]
  rw [e]
  refine ⟨h.1, h.2.congr (countable_singleton 0) (fun x hx => ?_) fun x => gammaPDFReal_nonneg ha one_pos x⟩
  have hx0 : x ≠ 0 := hx
  unfold gammaPDFReal
  rcases lt_or_gt_of_ne hx0 with h | h
  · rw [if_neg (not_le.2 h), if_pos h.le]
  · rw [if_pos h.le, if_neg (not_le.2 h)]; simp; ring

theorem gamma_locScale {a r : ℝ} (hr : 0 < r) : gammaPDFReal a r = locScale 0 (1 / r) (gammaPDFReal a 1) := by
  ext x
  unfold locScale gammaPDFReal
  have : (x - 0) / (1 / r) = r * x := by field_simp; ring
  rw [this]
  by_cases hx : 0 ≤ x
  · rw [if_pos hx, if_pos (by positivity), Real.mul_rpow hr.le hx, Real.rpow_sub_one hr.ne']
    simp; field_simp
  · rw [if_neg hx, if_neg (by rw [not_le] at hx ⊢; exact mul_neg_of_pos_of_neg hr hx)]; simp
theorem gammaCDF_locScale {a r : ℝ} (hr : 0 < r) (x : ℝ) : gammaCDF a r x = gammaCDF a 1 ((x - 0) / (1 / r)) := by
  have : (x - 0) / (1 / r) = r * x := by field_simp; ring
  rw [this]; unfold gammaCDF
  rw [one_mul]
  congr 1
  exact propext ⟨fun h => mul_nonpos_of_nonneg_of_nonpos hr.le h, fun h => by by_contra hc; push Not at hc; nlinarith⟩

theorem gamma_density {a r : ℝ} (ha : 0 < a) (hr : 0 < r) :
    IsCDF (gammaCDF a r) ∧ IsDensityOf (gammaPDFReal a r) (gammaCDF a r) := by
  have e : gammaCDF a r = fun x => gammaCDF a 1 ((x - 0) / (1 / r)) := by ext x; exact gammaCDF_locScale hr x
  have hr' : 0 < 1 / r := by positivity
  rw [e, gamma_locScale hr]
  exact ⟨locScale_isCDF hr' (gamma_std_density ha).1, locScale_density hr' (gamma_std_density ha).2⟩

/-- the measure with that density is Mathlib's `gammaMeasure` -/
theorem law_gamma (a r : ℝ) : Law (gammaPDFReal a r) = gammaMeasure a r := rfl

theorem gamma_std_raw {a : ℝ} (ha : 0 < a) (k : ℕ) :
    HasCentral (gammaPDFReal a 1) 0 k (Real.Gamma (a + k) / Real.Gamma a) := by
  have hG := Real.Gamma_pos_of_pos ha
  have hak : 0 < a + k := by positivity
  have := supp_integral_Ioi (a := 0) (F := fun x => (x - 0) ^ k * gammaPDFReal a 1 x)
    (G := fun t => (t ^ (a + k - 1) * rexp (-t)) / Real.Gamma a)
    (fun x hx => by
      show (x - 0) ^ k * gammaPDFReal a 1 x = _
      rw [gammaPDFReal, if_pos hx.le, sub_zero, one_rpow, one_mul,
        show a + k - 1 = (a - 1) + k by ring, rpow_add hx, rpow_natCast]; field_simp)
    (fun x hx => by
      show (x - 0) ^ k * gammaPDFReal a 1 x = 0
      rw [gammaPDFReal, if_neg (not_le.2 hx), mul_zero])
    ((gamma_integrableOn hak).div_const _)
  refine ⟨this.1, this.2.trans ?_⟩
  rw [integral_div]
  congr 1
  rw [Real.Gamma_eq_integral hak]; congr 1; ext t; ring

theorem gamma_raw_vals {a : ℝ} (ha : 0 < a) :
    Real.Gamma (a + 1) / Real.Gamma a = a ∧ Real.Gamma (a + 2) / Real.Gamma a = (a + 1) * a ∧
    Real.Gamma (a + 3) / Real.Gamma a = (a + 2) * (a + 1) * a ∧
    Real.Gamma (a + 4) / Real.Gamma a = (a + 3) * (a + 2) * (a + 1) * a := by
  have hG := (Real.Gamma_pos_of_pos ha).ne'
  have e1 : Real.Gamma (a + 1) = a * Real.Gamma a := Real.Gamma_add_one ha.ne'
  have e2 : Real.Gamma (a + 2) = (a + 1) * Real.Gamma (a + 1) := by
    rw [← Real.Gamma_add_one (by positivity)]; congr 1; ring
  have e3 : Real.Gamma (a + 3) = (a + 2) * Real.Gamma (a + 2) := by
    rw [← Real.Gamma_add_one (by positivity)]; congr 1; ring
  have e4 : Real.Gamma (a + 4) = (a + 3) * Real.Gamma (a + 3) := by
    rw [← Real.Gamma_add_one (by positivity)]; congr 1; ring
  rw [e4, e3, e2, e1]
  refine ⟨?_, ?_, ?_, ?_⟩ <;> field_simp

theorem gamma_std_mean {a : ℝ} (ha : 0 < a) : HasMean (gammaPDFReal a 1) a := by
  rw [hasMean_iff_raw]
  exact (gamma_std_raw ha 1).congr_val (by simpa using (gamma_raw_vals ha).1)

theorem gamma_std_moments {a : ℝ} (ha : 0 < a) :
    HasMeanVar (gammaPDFReal a 1) a a ∧ HasSkew (gammaPDFReal a 1) (2 / √a) ∧
    HasKurt (gammaPDFReal a 1) (3 + 6 / a) := by
  obtain ⟨_, hd⟩ := gamma_std_density ha
  obtain ⟨_, v2, v3, v4⟩ := gamma_raw_vals ha
  have h1 := gamma_std_mean ha
  have h2 := (gamma_std_raw ha 2).congr_val (by simpa using v2)
  have h3 := (gamma_std_raw ha 3).congr_val (by simpa using v3)
  have h4 := (gamma_std_raw ha 4).congr_val (by simpa using v4)
  have hmv : HasMeanVar (gammaPDFReal a 1) a a :=
    ⟨h1, (central2 hd.integrable hd.total h1 h2).congr_val (by ring)⟩
  refine ⟨hmv, ⟨a, a, ha, hmv, (central3 hd.integrable hd.total h1 h2 h3).congr_val ?_⟩,
    ⟨a, a, ha, hmv, (central4 hd.integrable hd.total h1 h2 h3 h4).congr_val ?_⟩⟩
  · have hs : √a ≠ 0 := (sqrt_pos.2 ha).ne'
    have : 2 / √a * √a ^ 3 = 2 * (√a ^ 2) := by field_simp
    rw [this, sq_sqrt ha.le]; ring
  · field_simp; ring

theorem gamma_moments {a r : ℝ} (ha : 0 < a) (hr : 0 < r) :
    HasMeanVar (gammaPDFReal a r) (a / r) (a / r ^ 2) ∧ HasSkew (gammaPDFReal a r) (2 / √a) ∧
    HasKurt (gammaPDFReal a r) (3 + 6 / a) := by
  have hr' : 0 < 1 / r := by positivity
  obtain ⟨h1, h2, h3⟩ := gamma_std_moments ha
  have hd := (gamma_std_density ha).2
  rw [gamma_locScale hr]
  refine ⟨?_, locScale_skew hr' hd h2, locScale_kurt hr' hd h3⟩
  have := locScale_meanVar (m := 0) hr' hd h1
  have e1 : 0 + 1 / r * a = a / r := by ring
  have e2 : (1 / r) ^ 2 * a = a / r ^ 2 := by ring
  rwa [e1, e2] at this

end Rstat.Spec
