import Verif.Lemmas.Gaussian
import Verif.Lemmas.Transfer
import Verif.Spec.NormalFamilies

/-! The log-normal law: density, moments, entropy, mode. -/
namespace Rstat.Spec
open MeasureTheory Filter Topology Set Real ProbabilityTheory

theorem logNormal_density (μ : ℝ) {v : ℝ} (hv : 0 < v) :
    IsCDF (logNormalCDF μ v) ∧ IsDensityOf (logNormalPDF μ v) (logNormalCDF μ v) := by
  have hs : 0 < √v := sqrt_pos.2 hv
  have key := half_density (a := 0) (G := fun x => Phi ((Real.log x - μ) / √v))
    (g := fun x => gaussianPDFReal μ v.toNNReal (Real.log x) / x) (fun x hx => ?_) (fun x hx => ?_) ?_ ?_
  · exact key
  · have h0 := (Phi_hasDerivAt ((Real.log x - μ) / √v)).comp x (((Real.hasDerivAt_log hx.ne').sub_const μ).div_const (√v))
    refine HasDerivAt.congr_deriv (f := fun x => Phi ((Real.log x - μ) / √v)) h0 ?_
    simp only [gaussianPDFReal]
    have h3 : √(2 * π * v) = √(2 * π) * √v := Real.sqrt_mul (by positivity) v
    rw [Real.coe_toNNReal _ hv.le, h3, div_pow, Real.sq_sqrt hv.le]
    have : √(2 * π) ≠ 0 := by positivity
    have e : -(Real.log x - μ) ^ 2 / (2 * v) = -((Real.log x - μ) ^ 2 / v) / 2 := by field_simp
    rw [e]
    generalize √(2 * π) = c at *
    field_simp
  · exact div_nonneg (gaussianPDFReal_nonneg _ _ _) hx.le
  · refine Phi_tendsto_bot.comp ?_
    exact (tendsto_atBot_add_const_right _ (-μ) Real.tendsto_log_nhdsGT_zero).atBot_div_const hs
  · refine Phi_tendsto_top.comp ?_
    exact (tendsto_atTop_add_const_right atTop (-μ) Real.tendsto_log_atTop).atTop_div_const hs

theorem logNormal_transfer (μ v : ℝ) (h : ℝ → ℝ) :
    (Integrable (fun x => h x * logNormalPDF μ v x) ↔ Integrable (fun t => h (Real.exp t) * gaussianPDFReal μ v.toNNReal t)) ∧
    ∫ x, h x * logNormalPDF μ v x = ∫ t, h (Real.exp t) * gaussianPDFReal μ v.toNNReal t := by
  have key := transfer (T := univ) (φ := Real.exp) (φ' := Real.exp) (f := logNormalPDF μ v) (g := gaussianPDFReal μ v.toNNReal)
    MeasurableSet.univ (fun t _ => Real.hasDerivAt_exp t) Real.exp_injective.injOn
    (fun t _ => by
      unfold logNormalPDF
      rw [if_neg (not_le.2 (Real.exp_pos t)), Real.log_exp, abs_of_pos (Real.exp_pos t), mul_div_cancel₀ _ (Real.exp_pos t).ne'])
    (Filter.Eventually.of_forall fun x hx => by
      unfold logNormalPDF
      rw [if_pos]
      by_contra h0
      exact hx ⟨Real.log x, mem_univ _, Real.exp_log (not_le.1 h0)⟩) h
  simpa only [integrableOn_univ, Measure.restrict_univ] using key

theorem logNormal_raw (μ : ℝ) {v : ℝ} (hv : 0 < v) (k : ℕ) :
    HasCentral (logNormalPDF μ v) 0 k (Real.exp (k * μ + k ^ 2 * v / 2)) := by
  have hv' : v.toNNReal ≠ 0 := by simpa using hv
  obtain ⟨h1, h2⟩ := logNormal_transfer μ v (fun x => (x - 0) ^ k)
  have e : ∀ t : ℝ, (Real.exp t - 0) ^ k * gaussianPDFReal μ v.toNNReal t = Real.exp (k * t) * gaussianPDFReal μ v.toNNReal t :=
    fun t => by rw [sub_zero, ← Real.exp_nat_mul]
  have hm : Measurable fun t : ℝ => Real.exp (k * t) := by fun_prop
  have ei : Integrable (fun t : ℝ => Real.exp (k * t)) (gaussianReal μ v.toNNReal) ↔
      Integrable (fun t => Real.exp (k * t) * gaussianPDFReal μ v.toNNReal t) := by
    rw [gaussianReal_of_var_ne_zero _ hv', integrable_withDensity_iff (measurable_gaussianPDF _ _)
      (Filter.Eventually.of_forall fun x => gaussianPDF_lt_top)]
    simp only [toReal_gaussianPDF]
  have ev : ∫ t, Real.exp (k * t) * gaussianPDFReal μ v.toNNReal t = ∫ t, Real.exp (k * t) ∂gaussianReal μ v.toNNReal := by
    rw [integral_gaussianReal_eq_integral_smul hv']
    congr 1; ext x; rw [smul_eq_mul, mul_comm]
  refine ⟨h1.2 ?_, ?_⟩
  · simp only [e]
    exact ei.1 (integrable_exp_mul_gaussianReal _)
  · rw [h2]
    simp only [e]
    rw [ev]
    have := mgf_gaussianReal (p := gaussianReal μ v.toNNReal) (X := id) (Measure.map_id) (k : ℝ)
    unfold mgf at this
    simp only [id] at this
    rw [this, Real.coe_toNNReal _ hv.le]
    congr 1; ring

/-- mean, variance, skewness and kurtosis, with `w = exp v` -/
theorem logNormal_moments (μ : ℝ) {v : ℝ} (hv : 0 < v) :
    HasMeanVar (logNormalPDF μ v) (Real.exp (μ + v / 2)) ((Real.exp v - 1) * Real.exp (2 * μ + v)) ∧
    HasSkew (logNormalPDF μ v) ((Real.exp v + 2) * √(Real.exp v - 1)) ∧
    HasKurt (logNormalPDF μ v) (Real.exp (4 * v) + 2 * Real.exp (3 * v) + 3 * Real.exp (2 * v) - 3) := by
  have r := fun k : ℕ => logNormal_raw μ hv k
  have h1 := r 1; have h2 := r 2; have h3 := r 3; have h4 := r 4
  have hw : 1 < Real.exp v := Real.one_lt_exp_iff.2 hv
  obtain ⟨hp, mv, sk, ku⟩ := moments_of_raw (logNormal_density μ hv).2 (hasMean_iff_raw.2 h1) h2 h3 h4
  set m := Real.exp (μ + v / 2) with hm
  set w := Real.exp v with hwd
  have hmp : 0 < m := Real.exp_pos _
  have e1 : Real.exp (((1:ℕ):ℝ) * μ + ((1:ℕ):ℝ) ^ 2 * v / 2) = m := by rw [hm]; congr 1; push_cast; ring
  have e2 : Real.exp (((2:ℕ):ℝ) * μ + ((2:ℕ):ℝ) ^ 2 * v / 2) = m ^ 2 * w := by
    rw [hm, hwd, ← Real.exp_nat_mul, ← Real.exp_add]; congr 1; push_cast; ring
  have e3 : Real.exp (((3:ℕ):ℝ) * μ + ((3:ℕ):ℝ) ^ 2 * v / 2) = m ^ 3 * w ^ 3 := by
    rw [hm, hwd, ← Real.exp_nat_mul, ← Real.exp_nat_mul, ← Real.exp_add]; congr 1; push_cast; ring
  have e4 : Real.exp (((4:ℕ):ℝ) * μ + ((4:ℕ):ℝ) ^ 2 * v / 2) = m ^ 4 * w ^ 6 := by
    rw [hm, hwd, ← Real.exp_nat_mul, ← Real.exp_nat_mul, ← Real.exp_add]; congr 1; push_cast; ring
  rw [e1, e2] at hp mv
  rw [e1, e2, e3] at sk
  rw [e1, e2, e3, e4] at ku
  have e5 : Real.exp (2 * μ + v) = m ^ 2 := by rw [hm, ← Real.exp_nat_mul]; congr 1; push_cast; ring
  have ev : m ^ 2 * w - m ^ 2 = m ^ 2 * (w - 1) := by ring
  have hw1 : 0 < w - 1 := by linarith
  refine ⟨?_, ?_, ?_⟩
  · rw [e5]; convert mv using 1; ring
  · convert sk using 1
    rw [ev, Real.sqrt_mul (by positivity), Real.sqrt_sq hmp.le]
    have hq := Real.sq_sqrt hw1.le
    have hq0 := Real.sqrt_pos.2 hw1
    generalize √(w - 1) = q at *
    have : w = q ^ 2 + 1 := by linarith
    rw [this]
    field_simp
    ring
  · convert ku using 1
    have f2 : Real.exp (2 * v) = w ^ 2 := by rw [hwd, ← Real.exp_nat_mul]; norm_num
    have f3 : Real.exp (3 * v) = w ^ 3 := by rw [hwd, ← Real.exp_nat_mul]; norm_num
    have f4 : Real.exp (4 * v) = w ^ 4 := by rw [hwd, ← Real.exp_nat_mul]; norm_num
    rw [f2, f3, f4, ev]
    have : w - 1 ≠ 0 := hw1.ne'
    field_simp
    ring

theorem logNormal_entropy (μ : ℝ) {v : ℝ} (hv : 0 < v) :
    HasEntropy (logNormalPDF μ v) (μ + 1 / 2 * Real.log (2 * π * Real.exp 1 * v)) := by
  have hs : 0 < √v := sqrt_pos.2 hv
  have e0 : (fun x => logNormalPDF μ v x * Real.log (logNormalPDF μ v x)) =
      fun x => Real.log (logNormalPDF μ v x) * logNormalPDF μ v x := by ext x; ring
  have e1 : ∀ t, Real.log (logNormalPDF μ v (Real.exp t)) = -(1 / 2 * Real.log (2 * π * v)) - (t - μ) ^ 2 / (2 * v) - t := fun t => by
    unfold logNormalPDF
    rw [if_neg (not_le.2 (Real.exp_pos t)), Real.log_exp, Real.log_div (gaussianPDFReal_pos _ _ _ (by simpa using hv)).ne' (Real.exp_pos t).ne',
      Real.log_exp, log_gaussianPDF μ hv]
  obtain ⟨h1, h2⟩ := logNormal_transfer μ v (fun x => Real.log (logNormalPDF μ v x))
  simp only [e1] at h1 h2
  obtain ⟨g1, g2⟩ := integral_gauss_std μ hv (fun t => -(1 / 2 * Real.log (2 * π * v)) - (t - μ) ^ 2 / (2 * v) - t) (by fun_prop)
  have e3 : (fun z => -(1 / 2 * Real.log (2 * π * v)) - (√v * z + μ - μ) ^ 2 / (2 * v) - (√v * z + μ)) =
      fun z : ℝ => (-(1 / 2 * Real.log (2 * π * v)) - μ) + (-√v) * z + (-1 / 2) * z ^ 2 + 0 * z ^ 3 + 0 * z ^ 4 := by
    ext z; rw [add_sub_cancel_right, mul_pow, Real.sq_sqrt hv.le]; field_simp; ring
  obtain ⟨p1, p2⟩ := std_poly (-(1 / 2 * Real.log (2 * π * v)) - μ) (-√v) (-1 / 2) 0 0
  simp only [e3] at g1 g2
  unfold HasEntropy
  rw [e0]
  refine ⟨h1.2 (g1.2 p1), ?_⟩
  rw [h2, g2, p2, show 2 * π * Real.exp 1 * v = 2 * π * v * Real.exp 1 by ring,
    Real.log_mul (by positivity) (Real.exp_pos 1).ne', Real.log_exp]
  ring

theorem logNormal_mode (μ : ℝ) {v x : ℝ} (hv : 0 < v) (hx : x ≠ Real.exp (μ - v)) :
    logNormalPDF μ v x < logNormalPDF μ v (Real.exp (μ - v)) := by
  have hg : ∀ t, 0 < gaussianPDFReal μ v.toNNReal t := fun t => gaussianPDFReal_pos _ _ _ (by simpa using hv)
  have h0 : 0 < logNormalPDF μ v (Real.exp (μ - v)) := by
    unfold logNormalPDF
    rw [if_neg (not_le.2 (Real.exp_pos _))]
    exact div_pos (hg _) (Real.exp_pos _)
  by_cases hm : x ≤ 0
  · unfold logNormalPDF at *; rw [if_pos hm]; exact h0
  · have hx0 : 0 < x := not_le.1 hm
    have hp : 0 < logNormalPDF μ v x := by
      unfold logNormalPDF; rw [if_neg hm]; exact div_pos (hg _) hx0
    rw [← Real.log_lt_log_iff hp h0]
    unfold logNormalPDF
    rw [if_neg hm, if_neg (not_le.2 (Real.exp_pos _)), Real.log_div (hg _).ne' hx0.ne', Real.log_div (hg _).ne' (Real.exp_pos _).ne',
      log_gaussianPDF μ hv, log_gaussianPDF μ hv, Real.log_exp]
    have hne : Real.log x - (μ - v) ≠ 0 := fun e => hx (by rw [← Real.exp_log hx0]; congr 1; linarith)
    have : 0 < (Real.log x - (μ - v)) ^ 2 / (2 * v) := by positivity
    have e : (Real.log x - μ) ^ 2 / (2 * v) + Real.log x = (Real.log x - (μ - v)) ^ 2 / (2 * v) + (μ - v / 2) := by
      field_simp; ring
    have e' : (μ - v - μ) ^ 2 / (2 * v) + (μ - v) = μ - v / 2 := by field_simp; ring
    linarith
end Rstat.Spec
