import Verif.Spec.Multi
import Verif.Lemmas.Dist.Beta
import Verif.Lemmas.Dist.Gamma2
import Mathlib.Probability.Independence.Integration
import Mathlib.MeasureTheory.Constructions.Pi

/-! The Dirichlet law: all mixed moments, from its definition by normalised Gamma variates. -/
namespace Rstat.Spec
open MeasureTheory ProbabilityTheory Set Filter

theorem gammaPDF_measurable (a r : ℝ) : Measurable (gammaPDF a r) := (measurable_gammaPDFReal a r).ennreal_ofReal

/-- gamma law tilted by a power and an exponential -/
theorem gamma_tilt_lintegral {a k t : ℝ} (ha : 0 < a) (hk : 0 ≤ k) (ht : 0 < 1 + t) :
    ∫⁻ x, ENNReal.ofReal (x ^ k * Real.exp (-(t * x))) ∂(gammaMeasure a 1) =
      ENNReal.ofReal (Real.Gamma (a + k) / Real.Gamma a * (1 + t) ^ (-(a + k))) := by
  have hak : 0 < a + k := by linarith
  have hG := Real.Gamma_pos_of_pos ha
  have hG' := Real.Gamma_pos_of_pos hak
  have hT : 0 < (1 + t) ^ (a + k) := Real.rpow_pos_of_pos ht _
  rw [gammaMeasure, lintegral_withDensity_eq_lintegral_mul _ (gammaPDF_measurable _ _) (by fun_prop)]
  rw [← mul_one (ENNReal.ofReal (Real.Gamma (a + k) / Real.Gamma a * (1 + t) ^ (-(a + k)))), ← lintegral_gammaPDF_eq_one hak ht,
    ← lintegral_const_mul _ (gammaPDF_measurable _ _)]
  refine lintegral_congr_ae ?_
  have h0 : ∀ᵐ x : ℝ, x ≠ 0 := by simp [ae_iff]
  filter_upwards [h0] with x hx
  rcases lt_or_gt_of_ne hx with hx | hx
  · simp only [Pi.mul_apply, gammaPDF_of_neg hx, zero_mul, mul_zero]
  · simp only [Pi.mul_apply]
    rw [gammaPDF_of_nonneg hx.le, gammaPDF_of_nonneg hx.le, ← ENNReal.ofReal_mul (by positivity), ← ENNReal.ofReal_mul (by positivity)]
    congr 1
    rw [Real.one_rpow, Real.rpow_neg ht.le, show a + k - 1 = (a - 1) + k by ring, Real.rpow_add hx,
      show -((1 + t) * x) = -(1 * x) + -(t * x) by ring, Real.exp_add]
    generalize Real.exp (-(1 * x)) = E1
    generalize Real.exp (-(t * x)) = E2
    generalize x ^ k = X1
    generalize x ^ (a - 1) = X2
    field_simp

theorem gamma_ae_pos {a : ℝ} : ∀ᵐ x ∂(gammaMeasure a 1), 0 < x := by
  rw [gammaMeasure, ae_withDensity_iff (gammaPDF_measurable _ _)]
  have h0 : ∀ᵐ x : ℝ, x ≠ 0 := by simp [ae_iff]
  filter_upwards [h0] with x hx hne
  rcases lt_or_gt_of_ne hx with hx | hx
  · exact absurd (gammaPDF_of_neg hx) hne
  · exact hx

section
variable {n : ℕ} {a k : Fin n → ℝ}

theorem pi_gamma_ae_pos (ha : ∀ i, 0 < a i) : ∀ᵐ g ∂(Measure.pi fun i => gammaMeasure (a i) 1), ∀ i, 0 < g i := by
  have : ∀ i, IsProbabilityMeasure (gammaMeasure (a i) 1) := fun i => isProbabilityMeasure_gammaMeasure (ha i) one_pos
  exact eventually_all.2 fun i => Measure.tendsto_eval_ae_ae.eventually gamma_ae_pos

theorem pi_lintegral_prod (μ : Fin n → Measure ℝ) [∀ i, IsProbabilityMeasure (μ i)] (f : Fin n → ℝ → ENNReal)
    (hf : ∀ i, Measurable (f i)) :
    ∫⁻ g, ∏ i, f i (g i) ∂(Measure.pi μ) = ∏ i, ∫⁻ x, f i x ∂(μ i) := by
  have hi : iIndepFun (fun i (g : Fin n → ℝ) => f i (g i)) (Measure.pi μ) := iIndepFun_pi fun i => (hf i).aemeasurable
  rw [lintegral_prod_eq_prod_lintegral_of_indepFun Finset.univ _ hi fun i => (hf i).comp (measurable_pi_apply i)]
  refine Finset.prod_congr rfl fun i _ => ?_
  exact (measurePreserving_eval μ i).lintegral_comp (hf i)

/-- `∫ t^(K-1) (1+t)^(-(A+K)) dt = B(K, A)` -/
theorem betaPrime_lintegral {K A : ℝ} (hK : 0 < K) (hA : 0 < A) :
    ∫⁻ t in Ioi (0:ℝ), ENNReal.ofReal (t ^ (K - 1) * (1 + t) ^ (-(A + K))) = ENNReal.ofReal (Beta K A) := by
  have hd := (bp_density hK hA).2
  have hB := Beta_pos hK hA
  have h1 : ∫⁻ t, ENNReal.ofReal (betaPrimePDF K A t) = 1 := by
    have := hd.isProbability.measure_univ
    rwa [Law, withDensity_apply _ MeasurableSet.univ, Measure.restrict_univ] at this
  rw [← lintegral_indicator measurableSet_Ioi]
  have e : ∀ t, (Ioi (0:ℝ)).indicator (fun t => ENNReal.ofReal (t ^ (K - 1) * (1 + t) ^ (-(A + K)))) t =
      ENNReal.ofReal (Beta K A) * ENNReal.ofReal (betaPrimePDF K A t) := fun t => by
    by_cases ht : 0 < t
    · rw [indicator_of_mem (show t ∈ Ioi (0:ℝ) from ht), ← ENNReal.ofReal_mul hB.le, betaPrimePDF, if_neg (not_le.2 ht)]
      congr 1
      rw [mul_div_cancel₀ _ hB.ne', show -K - A = -(A + K) by ring]
    · rw [indicator_of_notMem (show t ∉ Ioi (0:ℝ) from ht), betaPrimePDF, if_pos (not_lt.1 ht)]; simp
  simp only [e]
  rw [lintegral_const_mul' _ _ ENNReal.ofReal_ne_top, h1, mul_one]

/-- all mixed moments of the normalised Gamma vector -/
theorem dirichlet_mixed [NeZero n] (ha : ∀ i, 0 < a i) (hk : ∀ i, 0 ≤ k i) (hK : 0 < ∑ i, k i) :
    ∫⁻ g, ENNReal.ofReal (∏ i, (g i / ∑ j, g j) ^ k i) ∂(Measure.pi fun i => gammaMeasure (a i) 1) =
      ENNReal.ofReal (Real.Gamma (∑ i, a i) / Real.Gamma (∑ i, a i + ∑ i, k i) * ∏ i, Real.Gamma (a i + k i) / Real.Gamma (a i)) := by
  have : ∀ i, IsProbabilityMeasure (gammaMeasure (a i) 1) := fun i => isProbabilityMeasure_gammaMeasure (ha i) one_pos
  set K := ∑ i, k i with hKd
  set A := ∑ i, a i with hAd
  have hA : 0 < A := Finset.sum_pos (fun i _ => ha i) ⟨0, Finset.mem_univ _⟩
  have hGK := Real.Gamma_pos_of_pos hK
  -- the integrand as an integral over t
  have e1 : ∀ g : Fin n → ℝ, (∀ i, 0 < g i) → ENNReal.ofReal (∏ i, (g i / ∑ j, g j) ^ k i) =
      ∫⁻ t in Ioi (0:ℝ), ENNReal.ofReal (t ^ (K - 1) / Real.Gamma K) * ∏ i, ENNReal.ofReal (g i ^ k i * Real.exp (-(t * g i))) := by
    intro g hg
    have hS : 0 < ∑ j, g j := Finset.sum_pos (fun i _ => hg i) ⟨0, Finset.mem_univ _⟩
    have hp : ∀ t, t ∈ Ioi (0:ℝ) → ENNReal.ofReal (t ^ (K - 1) / Real.Gamma K) * ∏ i, ENNReal.ofReal (g i ^ k i * Real.exp (-(t * g i)))
        = ENNReal.ofReal ((∏ i, g i ^ k i) / Real.Gamma K * (t ^ (K - 1) * Real.exp (-((∑ j, g j) * t)))) := fun t ht => by
      have ht : 0 < t := ht
      rw [← ENNReal.ofReal_prod_of_nonneg fun i _ => by have := hg i; positivity]
      rw [← ENNReal.ofReal_mul (by positivity), Finset.prod_mul_distrib, ← Real.exp_sum]
      congr 1
      rw [Finset.sum_neg_distrib, ← Finset.mul_sum, mul_comm t]; ring
    rw [setLIntegral_congr_fun measurableSet_Ioi hp, ← ofReal_integral_eq_lintegral_ofReal]
    · rw [integral_const_mul, Real.integral_rpow_mul_exp_neg_mul_Ioi hK hS]
      congr 1
      have : ∀ i, (g i / ∑ j, g j) ^ k i = g i ^ k i / (∑ j, g j) ^ k i := fun i => Real.div_rpow (hg i).le hS.le _
      simp only [this]
      rw [Finset.prod_div_distrib, ← Real.rpow_sum_of_pos hS, one_div, Real.inv_rpow hS.le]
      rw [← hKd]
      have := Real.rpow_pos_of_pos hS K
      field_simp
    · refine Integrable.const_mul ?_ _
      have := integrableOn_rpow_mul_exp_neg_mul_rpow (s := K - 1) (p := 1) (b := ∑ j, g j) (by linarith) one_pos hS
      simp only [Real.rpow_one, neg_mul] at this
      exact this
    · refine (ae_restrict_iff' measurableSet_Ioi).2 (Eventually.of_forall fun t ht => ?_)
      have ht : 0 < t := ht
      have : 0 ≤ ∏ i, g i ^ k i := Finset.prod_nonneg fun i _ => Real.rpow_nonneg (hg i).le _
      show 0 ≤ _
      positivity
  rw [lintegral_congr_ae ((pi_gamma_ae_pos ha).mono e1), lintegral_lintegral_swap]
  swap
  · refine Measurable.aemeasurable ?_
    refine Measurable.mul (by fun_prop) (Finset.measurable_prod _ fun i _ => ?_)
    fun_prop
  have e2 : ∀ t ∈ Ioi (0:ℝ), ∫⁻ g, ENNReal.ofReal (t ^ (K - 1) / Real.Gamma K) * ∏ i, ENNReal.ofReal (g i ^ k i * Real.exp (-(t * g i)))
      ∂(Measure.pi fun i => gammaMeasure (a i) 1) =
      ENNReal.ofReal ((∏ i, Real.Gamma (a i + k i) / Real.Gamma (a i)) / Real.Gamma K) * ENNReal.ofReal (t ^ (K - 1) * (1 + t) ^ (-(A + K))) := by
    intro t ht
    have ht : 0 < t := ht
    have ht1 : 0 < 1 + t := by linarith
    rw [lintegral_const_mul' _ _ ENNReal.ofReal_ne_top, pi_lintegral_prod _ (fun i x => ENNReal.ofReal (x ^ k i * Real.exp (-(t * x)))) fun i => by fun_prop]
    have : ∀ i, ∫⁻ x, ENNReal.ofReal (x ^ k i * Real.exp (-(t * x))) ∂(gammaMeasure (a i) 1) =
      ENNReal.ofReal (Real.Gamma (a i + k i) / Real.Gamma (a i) * (1 + t) ^ (-(a i + k i))) := fun i => gamma_tilt_lintegral (ha i) (hk i) ht1
    simp only [this]
    have hpos : ∀ i, 0 < Real.Gamma (a i + k i) / Real.Gamma (a i) := fun i =>
      div_pos (Real.Gamma_pos_of_pos (by linarith [ha i, hk i])) (Real.Gamma_pos_of_pos (ha i))
    have hP : 0 < ∏ i, Real.Gamma (a i + k i) / Real.Gamma (a i) := Finset.prod_pos fun i _ => hpos i
    rw [← ENNReal.ofReal_prod_of_nonneg fun i _ => by have := hpos i; positivity, ← ENNReal.ofReal_mul (by positivity),
      ← ENNReal.ofReal_mul (by positivity)]
    congr 1
    rw [Finset.prod_mul_distrib, ← Real.rpow_sum_of_pos ht1, Finset.sum_neg_distrib, Finset.sum_add_distrib]
    ring
  rw [setLIntegral_congr_fun measurableSet_Ioi e2, lintegral_const_mul' _ _ ENNReal.ofReal_ne_top, betaPrime_lintegral hK hA,
    ← ENNReal.ofReal_mul]
  · congr 1
    rw [Beta, add_comm K A]
    field_simp
  · have : 0 ≤ ∏ i, Real.Gamma (a i + k i) / Real.Gamma (a i) := Finset.prod_nonneg fun i _ =>
      div_nonneg (Real.Gamma_nonneg_of_nonneg (by linarith [ha i, hk i])) (Real.Gamma_nonneg_of_nonneg (ha i).le)
    positivity
end
end Rstat.Spec
