import Verif.Lemmas.Moments
import Mathlib.MeasureTheory.Function.JacobianOneDim
import Mathlib.Analysis.SpecialFunctions.Gamma.Basic
import Mathlib.Analysis.SpecialFunctions.Gamma.Deriv
import Mathlib.NumberTheory.Harmonic.GammaDeriv
import Mathlib.Probability.Moments.MGFAnalytic
import Mathlib.Probability.Distributions.Exponential
import Verif.Spec.Special

/-! Change of variables for expectations, and the moments of `ln T` for `T` exponential. -/
namespace Rstat.Spec
open MeasureTheory Filter Topology Set Real ProbabilityTheory

/-- expectation under `f` rewritten as an integral over `T` along the parametrisation `φ` of the support -/
theorem transfer {T : Set ℝ} (hT : MeasurableSet T) {φ φ' f g : ℝ → ℝ} (hd : ∀ t ∈ T, HasDerivAt φ (φ' t) t)
    (inj : InjOn φ T) (hfg : ∀ t ∈ T, |φ' t| * f (φ t) = g t) (hout : ∀ᵐ x, x ∉ φ '' T → f x = 0) (h : ℝ → ℝ) :
    (Integrable (fun x => h x * f x) ↔ IntegrableOn (fun t => h (φ t) * g t) T) ∧
    ∫ x, h x * f x = ∫ t in T, h (φ t) * g t := by
  have hd' : ∀ t ∈ T, HasDerivWithinAt φ (φ' t) T t := fun t ht => (hd t ht).hasDerivWithinAt
  have hm : MeasurableSet (φ '' T) :=
    hT.image_of_continuousOn_injOn (fun t ht => (hd t ht).continuousAt.continuousWithinAt) inj
  have hae : (fun x => h x * f x) =ᵐ[volume] (φ '' T).indicator fun x => h x * f x := by
    filter_upwards [hout] with x hx
    by_cases hxm : x ∈ φ '' T
    · rw [indicator_of_mem hxm]
    · rw [indicator_of_notMem hxm, hx hxm, mul_zero]
  have e : ∀ t ∈ T, |φ' t| • (h (φ t) * f (φ t)) = h (φ t) * g t := fun t ht => by
    rw [← hfg t ht, smul_eq_mul]; ring
  constructor
  · rw [integrable_congr hae, integrable_indicator_iff hm,
      integrableOn_image_iff_integrableOn_abs_deriv_smul hT hd' inj]
    exact integrableOn_congr_fun e hT
  · rw [integral_congr_ae hae, integral_indicator hm, integral_image_eq_integral_abs_deriv_smul hT hd' inj]
    exact setIntegral_congr_fun hT e

/-- integrals against the unit exponential law -/
theorem exp_law_integral (h : ℝ → ℝ) :
    (Integrable h (expMeasure 1) ↔ IntegrableOn (fun t => h t * rexp (-t)) (Ioi 0)) ∧
    ∫ t, h t ∂(expMeasure 1) = ∫ t in Ioi 0, h t * rexp (-t) := by
  have hm : expMeasure 1 = volume.withDensity (exponentialPDF 1) := rfl
  have hmeas : Measurable (exponentialPDF 1) := (measurable_exponentialPDFReal 1).ennreal_ofReal
  have hlt : ∀ᵐ x ∂(volume : Measure ℝ), exponentialPDF 1 x < ⊤ := Eventually.of_forall fun x => ENNReal.ofReal_lt_top
  have hval : ∀ x, (exponentialPDF 1 x).toReal = if 0 ≤ x then rexp (-x) else 0 := fun x => by
    rw [exponentialPDF_eq, ENNReal.toReal_ofReal]
    · simp
    · split_ifs <;> positivity
  have hae : (fun x => (exponentialPDF 1 x).toReal • h x) =ᵐ[volume] (Ioi 0).indicator fun x => h x * rexp (-x) := by
    filter_upwards [compl_mem_ae_iff.2 ((countable_singleton (0:ℝ)).measure_zero volume)] with x hx
    simp only [mem_compl_iff, mem_singleton_iff] at hx
    rw [hval]
    rcases lt_or_gt_of_ne hx with h1 | h1
    · rw [if_neg (not_le.2 h1), indicator_of_notMem (by simpa using h1.le), zero_smul]
    · rw [if_pos h1.le, indicator_of_mem (by simpa using h1), smul_eq_mul, mul_comm]
  constructor
  · rw [hm, integrable_withDensity_iff_integrable_smul' hmeas hlt, integrable_congr hae,
      integrable_indicator_iff measurableSet_Ioi]
  · rw [hm, integral_withDensity_eq_integral_toReal_smul hmeas hlt, integral_congr_ae hae,
      integral_indicator measurableSet_Ioi]

theorem exp_log_mgf_integrable {s : ℝ} (hs : -1 < s) : s ∈ integrableExpSet Real.log (expMeasure 1) := by
  show Integrable _ _
  rw [(exp_law_integral _).1]
  have := Real.GammaIntegral_convergent (s := s + 1) (by linarith)
  refine this.congr_fun (fun t ht => ?_) measurableSet_Ioi
  have ht : 0 < t := ht
  simp only
  rw [add_sub_cancel_right, mul_comm s, rpow_def_of_pos ht]; ring

theorem exp_log_mem_interior {s : ℝ} (hs : -1 < s) : s ∈ interior (integrableExpSet Real.log (expMeasure 1)) :=
  mem_interior.2 ⟨Ioi (-1), fun _ ht => exp_log_mgf_integrable ht, isOpen_Ioi, hs⟩

theorem exp_log_mgf {s : ℝ} (hs : -1 < s) : mgf Real.log (expMeasure 1) s = Real.Gamma (1 + s) := by
  unfold mgf
  rw [(exp_law_integral _).2, Real.Gamma_eq_integral (by linarith)]
  refine setIntegral_congr_fun measurableSet_Ioi fun t ht => ?_
  have ht : 0 < t := ht
  rw [add_sub_cancel_left, mul_comm s, rpow_def_of_pos ht]; ring

/-- moments of `ln t` against the gamma kernel are derivatives of Gamma -/
theorem log_gamma_moment {a : ℝ} (ha : 0 < a) (n : ℕ) :
    IntegrableOn (fun t => Real.log t ^ n * (t ^ (a - 1) * rexp (-t))) (Ioi 0) ∧
    ∫ t in Ioi 0, Real.log t ^ n * (t ^ (a - 1) * rexp (-t)) = iteratedDeriv n Real.Gamma a := by
  have hs : -1 < a - 1 := by linarith
  have e : ∀ t ∈ Ioi (0:ℝ), Real.log t ^ n * rexp ((a - 1) * Real.log t) * rexp (-t) =
      Real.log t ^ n * (t ^ (a - 1) * rexp (-t)) := fun t ht => by
    have ht : 0 < t := ht
    rw [mul_comm (a - 1), ← rpow_def_of_pos ht]; ring
  constructor
  · have := integrable_pow_mul_exp_of_mem_interior_integrableExpSet (exp_log_mem_interior hs) n
    rw [(exp_law_integral _).1] at this
    exact this.congr_fun e measurableSet_Ioi
  · have := iteratedDeriv_mgf (exp_log_mem_interior hs) n
    rw [(exp_law_integral _).2, setIntegral_congr_fun measurableSet_Ioi e] at this
    rw [← this]
    have h2 : mgf Real.log (expMeasure 1) =ᶠ[𝓝 (a - 1)] fun s => Real.Gamma (1 + s) := by
      filter_upwards [Ioi_mem_nhds hs] with s hs
      exact exp_log_mgf hs
    rw [h2.iteratedDeriv_eq, iteratedDeriv_comp_const_add]
    simp

theorem gamma_hasDerivAt {a : ℝ} (ha : 0 < a) : HasDerivAt Real.Gamma (Real.Gamma a * digamma a) a := by
  have hd : DifferentiableAt ℝ Real.Gamma a := Real.differentiableAt_Gamma fun m hm => by
    have : (0:ℝ) ≤ m := Nat.cast_nonneg m
    linarith
  have h := hd.hasDerivAt
  have h2 : digamma a = deriv Real.Gamma a / Real.Gamma a := (h.log (Real.Gamma_pos_of_pos ha).ne').deriv
  rw [h2, mul_div_cancel₀ _ (Real.Gamma_pos_of_pos ha).ne']
  exact h

theorem digamma_one : digamma 1 = -Real.eulerMascheroniConstant := by
  have h := (gamma_hasDerivAt one_pos).deriv
  rw [Real.Gamma_one, one_mul] at h
  rw [← h, Real.eulerMascheroniConstant_eq_neg_deriv, neg_neg]

/-- `E[ln T] Γ(a)` for the gamma kernel -/
theorem log_gamma_mean {a : ℝ} (ha : 0 < a) :
    IntegrableOn (fun t => Real.log t * (t ^ (a - 1) * rexp (-t))) (Ioi 0) ∧
    ∫ t in Ioi 0, Real.log t * (t ^ (a - 1) * rexp (-t)) = Real.Gamma a * digamma a := by
  have := log_gamma_moment ha 1
  simp only [pow_one, iteratedDeriv_one] at this
  rwa [(gamma_hasDerivAt ha).deriv] at this

theorem exp_log_mean : IntegrableOn (fun t => Real.log t * rexp (-t)) (Ioi 0) ∧
    ∫ t in Ioi 0, Real.log t * rexp (-t) = digamma 1 := by
  have := log_gamma_mean one_pos
  simpa only [sub_self, rpow_zero, one_mul, Real.Gamma_one] using this

/-- `E[T^s]` for the unit exponential law -/
theorem exp_rpow {s : ℝ} (hs : -1 < s) : IntegrableOn (fun t => t ^ s * rexp (-t)) (Ioi 0) ∧
    ∫ t in Ioi 0, t ^ s * rexp (-t) = Real.Gamma (1 + s) := by
  have h := Real.GammaIntegral_convergent (s := 1 + s) (by linarith)
  have h2 := Real.Gamma_eq_integral (s := 1 + s) (by linarith)
  simp only [add_sub_cancel_left] at h h2
  constructor
  · exact h.congr_fun (fun t _ => mul_comm _ _) measurableSet_Ioi
  · rw [h2]; exact setIntegral_congr_fun measurableSet_Ioi fun t _ => mul_comm _ _

end Rstat.Spec
