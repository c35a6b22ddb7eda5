import Verif.Lemmas.Gaussian
import Verif.Lemmas.Moments
import Verif.Spec.NormalFamilies
import Mathlib.Analysis.SpecialFunctions.Trigonometric.DerivHyp
import Mathlib.Analysis.SpecialFunctions.Trigonometric.Series
import Mathlib.Analysis.SpecialFunctions.Exponential

/-! The folded normal law: density, moments, mode, sampling. -/
namespace Rstat.Spec
open MeasureTheory Filter Topology Set Real ProbabilityTheory

theorem gauss_sq {μ s : ℝ} (hs : 0 < s) (x : ℝ) :
    gaussianPDFReal μ (s ^ 2).toNNReal x = Real.exp (-((x - μ) / s) ^ 2 / 2) / (√(2 * π) * s) := by
  simp only [gaussianPDFReal]
  rw [Real.coe_toNNReal _ (by positivity), Real.sqrt_mul (by positivity), Real.sqrt_sq hs.le,
    show -(x - μ) ^ 2 / (2 * s ^ 2) = -((x - μ) / s) ^ 2 / 2 by field_simp]
  ring

theorem gauss_neg {μ s : ℝ} (hs : 0 < s) (x : ℝ) :
    gaussianPDFReal μ (s ^ 2).toNNReal (-x) = gaussianPDFReal (-μ) (s ^ 2).toNNReal x := by
  rw [gauss_sq hs, gauss_sq hs, show (-x - μ) / s = -((x - -μ) / s) by ring, neg_sq]

theorem Phi_affine_deriv {μ s : ℝ} (hs : 0 < s) (x : ℝ) :
    HasDerivAt (fun x => Phi ((x - μ) / s)) (gaussianPDFReal μ (s ^ 2).toNNReal x) x := by
  have h := (Phi_hasDerivAt ((x - μ) / s)).comp x (((hasDerivAt_id x).sub_const μ).div_const s)
  refine HasDerivAt.congr_deriv (f := fun x => Phi ((x - μ) / s)) h ?_
  rw [gauss_sq hs]
  have : √(2 * π) ≠ 0 := by positivity
  field_simp

theorem gauss_deriv {s : ℝ} (hs : 0 < s) (m x : ℝ) : HasDerivAt (fun x => gaussianPDFReal m (s ^ 2).toNNReal x)
    (-(x - m) / s ^ 2 * gaussianPDFReal m (s ^ 2).toNNReal x) x := by
  simp only [gauss_sq hs]
  have h : HasDerivAt (fun x => Real.exp (-((x - m) / s) ^ 2 / 2) / (√(2 * π) * s))
      (Real.exp (-((x - m) / s) ^ 2 / 2) * (-(2 * ((x - m) / s) ^ (2 - 1) * (1 / s)) / 2) / (√(2 * π) * s)) x :=
    ((((((hasDerivAt_id x).sub_const m).div_const s).pow 2).neg.div_const 2).exp).div_const (√(2 * π) * s)
  refine h.congr_deriv ?_
  generalize Real.exp (-((x - m) / s) ^ 2 / 2) = E
  rw [show (2:ℕ) - 1 = 1 from rfl, pow_one]
  field_simp

theorem cosh_ge (y : ℝ) : 1 + y ^ 2 / 2 ≤ Real.cosh y := by
  have h : ∀ y : ℝ, 0 ≤ y → 1 + y ^ 2 / 2 ≤ Real.cosh y := fun y hy => by
    have h1 : y / 2 ≤ Real.sinh (y / 2) := Real.self_le_sinh_iff.2 (by linarith)
    have h2 := Real.cosh_two_mul (y / 2)
    rw [Real.cosh_sq, show 2 * (y / 2) = y by ring] at h2
    nlinarith [mul_self_le_mul_self (by linarith : 0 ≤ y / 2) h1]
  rcases le_total 0 y with hy | hy
  · exact h y hy
  · have := h (-y) (by linarith)
    rwa [neg_sq, Real.cosh_neg] at this

theorem Phi_affine_top {μ s : ℝ} (hs : 0 < s) : Tendsto (fun x => Phi ((x - μ) / s)) atTop (𝓝 1) :=
  Phi_tendsto_top.comp ((tendsto_atTop_add_const_right atTop (-μ) tendsto_id).atTop_div_const hs)

/-- the second normal probability of the folded distribution function, as an increasing function -/
theorem folded_eq (μ s x : ℝ) : Phi ((x - μ) / s) - Phi ((-x - μ) / s) = Phi ((x - μ) / s) + Phi ((x - -μ) / s) - 1 := by
  rw [show (-x - μ) / s = -((x - -μ) / s) by ring, Phi_neg]; ring

theorem folded_density {μ s : ℝ} (hs : 0 < s) : IsCDF (foldedCDF μ s) ∧ IsDensityOf (foldedPDF μ s) (foldedCDF μ s) := by
  obtain ⟨h1, h2⟩ := half_density (a := 0) (G := fun x => Phi ((x - μ) / s) - Phi ((-x - μ) / s))
    (g := fun x => gaussianPDFReal μ (s ^ 2).toNNReal x + gaussianPDFReal μ (s ^ 2).toNNReal (-x))
    (fun x hx => by
      simp only [folded_eq, gauss_neg hs]
      exact ((Phi_affine_deriv hs x).add (Phi_affine_deriv hs x)).sub_const 1)
    (fun x hx => add_nonneg (gaussianPDFReal_nonneg _ _ _) (gaussianPDFReal_nonneg _ _ _))
    (by
      have hc : Continuous fun x => Phi ((x - μ) / s) - Phi ((-x - μ) / s) := by
        have := Phi_continuous; fun_prop
      have := (hc.tendsto 0).mono_left (nhdsWithin_le_nhds (s := Ioi 0))
      simpa using this)
    (by
      simp only [folded_eq]
      have := ((Phi_affine_top (μ := μ) hs).add (Phi_affine_top (μ := -μ) hs)).sub_const 1
      norm_num at this ⊢
      exact this)
  have e : halfCDF 0 (fun x => Phi ((x - μ) / s) - Phi ((-x - μ) / s)) = foldedCDF μ s := by
    ext x
    unfold halfCDF foldedCDF
    rcases lt_trichotomy x 0 with h | rfl | h
    · rw [if_pos h.le, if_pos h]
    · simp
    · rw [if_neg (not_le.2 h), if_neg (not_lt.2 h.le)]
  rw [e] at h1 h2
  refine ⟨h1, h2.congr (countable_singleton 0) (fun x hx => ?_) fun x => ?_⟩
  · unfold foldedPDF
    rcases lt_or_gt_of_ne (show x ≠ 0 from hx) with h | h
    · rw [if_pos h.le, if_pos h]
    · rw [if_neg (not_le.2 h), if_neg (not_lt.2 h.le)]
  · unfold foldedPDF
    split_ifs
    · exact le_rfl
    · exact add_nonneg (gaussianPDFReal_nonneg _ _ _) (gaussianPDFReal_nonneg _ _ _)

/-- expectations under the folded law are expectations of `|Y|` -/
theorem folded_expect {μ s : ℝ} {h : ℝ → ℝ} (hi : Integrable fun x => h |x| * gaussianPDFReal μ (s ^ 2).toNNReal x) :
    Integrable (fun x => h x * foldedPDF μ s x) ∧
    ∫ x, h x * foldedPDF μ s x = ∫ x, h |x| * gaussianPDFReal μ (s ^ 2).toNNReal x := by
  set H := fun x => h |x| * gaussianPDFReal μ (s ^ 2).toNNReal x with hH
  have hn : Integrable fun x => H (-x) := hi.comp_neg
  have hsum : IntegrableOn (fun x => H x + H (-x)) (Ioi 0) := hi.integrableOn.add hn.integrableOn
  obtain ⟨k1, k2⟩ := supp_integral_Ioi (a := 0) (F := fun x => h x * foldedPDF μ s x) (G := fun x => H x + H (-x))
    (fun x hx => by
      simp only [hH, foldedPDF, abs_neg, abs_of_pos hx, if_neg (not_lt.2 hx.le)]; ring)
    (fun x hx => by simp only [foldedPDF, if_pos hx, mul_zero]) hsum
  refine ⟨k1, ?_⟩
  rw [k2, integral_add hi.integrableOn hn.integrableOn, integral_comp_neg_Ioi, neg_zero, add_comm]
  exact intervalIntegral.integral_Iic_add_Ioi hi.integrableOn hi.integrableOn

theorem gauss_abs_integrable (μ : ℝ) {v : ℝ} (hv : 0 < v) (k : ℕ) :
    Integrable fun x => |x| ^ k * gaussianPDFReal μ v.toNNReal x := by
  have hv' : v.toNNReal ≠ 0 := by simpa using hv
  have h0 : MemLp id (k : ENNReal) (gaussianReal μ v.toNNReal) := by
    simpa using memLp_id_gaussianReal (μ := μ) (v := v.toNNReal) (k : NNReal)
  have h := h0.integrable_norm_pow'
  simp only [id, Real.norm_eq_abs] at h
  rw [gaussianReal_of_var_ne_zero _ hv', integrable_withDensity_iff (measurable_gaussianPDF _ _)
      (Filter.Eventually.of_forall fun x => gaussianPDF_lt_top)] at h
  simpa only [toReal_gaussianPDF] using h

theorem folded_integrable {μ s : ℝ} (hs : 0 < s) (k : ℕ) : Integrable fun x => x ^ k * foldedPDF μ s x :=
  (folded_expect (h := fun x => x ^ k) (gauss_abs_integrable μ (by positivity) k)).1

theorem folded_mean {μ s : ℝ} (hs : 0 < s) :
    HasMean (foldedPDF μ s) (2 * s ^ 2 * gaussianPDFReal μ (s ^ 2).toNNReal 0 + μ * (Phi (μ / s) - Phi (-(μ / s)))) := by
  have hg : ∀ m x : ℝ, HasDerivAt (fun x => -(s ^ 2 * gaussianPDFReal m (s ^ 2).toNNReal x) + m * Phi ((x - m) / s))
      (x * gaussianPDFReal m (s ^ 2).toNNReal x) x := fun m x => by
    have h1 := gauss_deriv hs m x
    refine ((h1.const_mul (s ^ 2)).neg.add ((Phi_affine_deriv hs x).const_mul m)).congr_deriv ?_
    field_simp; ring
  have hlim : ∀ m : ℝ, Tendsto (fun x => gaussianPDFReal m (s ^ 2).toNNReal x) atTop (𝓝 0) := fun m => by
    simp only [gauss_sq hs]
    have h1 : Tendsto (fun x : ℝ => (x - m) / s) atTop atTop :=
      (tendsto_atTop_add_const_right atTop (-m) tendsto_id).atTop_div_const hs
    have h2 : Tendsto (fun x : ℝ => ((x - m) / s) ^ 2 / 2) atTop atTop :=
      ((tendsto_pow_atTop (by norm_num)).comp h1).atTop_div_const (by norm_num)
    have h3 := (Real.tendsto_exp_neg_atTop_nhds_zero.comp h2).div_const (√(2 * π) * s)
    rw [zero_div] at h3
    refine h3.congr fun x => ?_
    simp only [Function.comp, neg_div]
  have hA : ∀ x ∈ Ici (0:ℝ), HasDerivAt (fun x => (-(s ^ 2 * gaussianPDFReal μ (s ^ 2).toNNReal x) + μ * Phi ((x - μ) / s)) +
      (-(s ^ 2 * gaussianPDFReal (-μ) (s ^ 2).toNNReal x) + -μ * Phi ((x - -μ) / s)))
      (x * gaussianPDFReal μ (s ^ 2).toNNReal x + x * gaussianPDFReal (-μ) (s ^ 2).toNNReal x) x :=
    fun x _ => (hg μ x).add (hg (-μ) x)
  have hl : Tendsto (fun x => (-(s ^ 2 * gaussianPDFReal μ (s ^ 2).toNNReal x) + μ * Phi ((x - μ) / s)) +
      (-(s ^ 2 * gaussianPDFReal (-μ) (s ^ 2).toNNReal x) + -μ * Phi ((x - -μ) / s))) atTop (𝓝 0) := by
    have := ((((hlim μ).const_mul (s ^ 2)).neg).add ((Phi_affine_top (μ := μ) hs).const_mul μ)).add
      ((((hlim (-μ)).const_mul (s ^ 2)).neg).add ((Phi_affine_top (μ := -μ) hs).const_mul (-μ)))
    norm_num at this ⊢
    exact this
  have hpos : ∀ x ∈ Ioi (0:ℝ), 0 ≤ x * gaussianPDFReal μ (s ^ 2).toNNReal x + x * gaussianPDFReal (-μ) (s ^ 2).toNNReal x :=
    fun x hx => add_nonneg (mul_nonneg (le_of_lt hx) (gaussianPDFReal_nonneg _ _ _)) (mul_nonneg (le_of_lt hx) (gaussianPDFReal_nonneg _ _ _))
  obtain ⟨k1, k2⟩ := supp_integral_Ioi (a := 0) (F := fun x => x * foldedPDF μ s x)
    (fun x hx => by
      show _ = x * gaussianPDFReal μ (s ^ 2).toNNReal x + x * gaussianPDFReal (-μ) (s ^ 2).toNNReal x
      simp only [foldedPDF, if_neg (not_lt.2 hx.le), gauss_neg hs]; ring)
    (fun x hx => by simp only [foldedPDF, if_pos hx, mul_zero]) (integrableOn_Ioi_deriv_of_nonneg' hA hpos hl)
  refine ⟨k1, ?_⟩
  rw [k2, integral_Ioi_of_hasDerivAt_of_nonneg' hA hpos hl]
  have e : gaussianPDFReal (-μ) (s ^ 2).toNNReal 0 = gaussianPDFReal μ (s ^ 2).toNNReal 0 := by
    rw [← gauss_neg hs, neg_zero]
  rw [e, zero_sub, zero_sub μ, zero_sub (-μ), neg_neg, neg_div]
  ring

theorem folded_raw2 {μ s : ℝ} (hs : 0 < s) : HasCentral (foldedPDF μ s) 0 2 (μ ^ 2 + s ^ 2) := by
  obtain ⟨h1, h2⟩ := folded_expect (h := fun x => x ^ 2) (gauss_abs_integrable μ (show 0 < s ^ 2 by positivity) 2)
  refine ⟨by simpa using h1, ?_⟩
  simp only [sub_zero]
  rw [h2]
  simp only [sq_abs]
  have hq : √(s ^ 2) = s := Real.sqrt_sq hs.le
  rw [(integral_gauss_std μ (show 0 < s ^ 2 by positivity) (fun x => x ^ 2) (by fun_prop)).2]
  have := (std_poly (μ ^ 2) (2 * s * μ) (s ^ 2) 0 0).2
  rw [show μ ^ 2 + s ^ 2 = μ ^ 2 + s ^ 2 + 3 * 0 by ring, ← this, hq]
  congr 1; ext z; ring

theorem folded_meanVar {μ s m : ℝ} (hs : 0 < s) (hm : HasMean (foldedPDF μ s) m) :
    HasMeanVar (foldedPDF μ s) m (μ ^ 2 + s ^ 2 - m ^ 2) :=
  ⟨hm, central2 (folded_density hs).2.integrable (folded_density hs).2.total hm (folded_raw2 hs)⟩

/-- the standardised moments of orders 3 and 4 exist -/
theorem folded_shape {μ s : ℝ} (hs : 0 < s) : (∃ k, HasSkew (foldedPDF μ s) k) ∧ ∃ k, HasKurt (foldedPDF μ s) k := by
  have hd := (folded_density (μ := μ) hs).2
  have h3 : HasCentral (foldedPDF μ s) 0 3 (∫ x, (x - 0) ^ 3 * foldedPDF μ s x) := ⟨by simpa using folded_integrable hs 3, rfl⟩
  have h4 : HasCentral (foldedPDF μ s) 0 4 (∫ x, (x - 0) ^ 4 * foldedPDF μ s x) := ⟨by simpa using folded_integrable hs 4, rfl⟩
  obtain ⟨_, _, a, b⟩ := moments_of_raw hd (folded_mean hs) (folded_raw2 hs) h3 h4
  exact ⟨⟨_, a⟩, ⟨_, b⟩⟩

/-- the density on the support -/
theorem folded_cosh {μ s x : ℝ} (hs : 0 < s) (hx : 0 ≤ x) :
    foldedPDF μ s x = 2 * Real.exp (-(μ / s) ^ 2 / 2) / (√(2 * π) * s) * (Real.exp (-(x / s) ^ 2 / 2) * Real.cosh (μ / s * (x / s))) := by
  unfold foldedPDF
  rw [if_neg (not_lt.2 hx), gauss_neg hs, gauss_sq hs, gauss_sq hs, Real.cosh_eq]
  have e1 : Real.exp (-((x - μ) / s) ^ 2 / 2) = Real.exp (-(μ / s) ^ 2 / 2) * Real.exp (-(x / s) ^ 2 / 2) * Real.exp (μ / s * (x / s)) := by
    rw [← Real.exp_add, ← Real.exp_add]; congr 1; ring
  have e2 : Real.exp (-((x - -μ) / s) ^ 2 / 2) = Real.exp (-(μ / s) ^ 2 / 2) * Real.exp (-(x / s) ^ 2 / 2) * Real.exp (-(μ / s * (x / s))) := by
    rw [← Real.exp_add, ← Real.exp_add]; congr 1; ring
  rw [e1, e2]; ring

theorem folded_zero {μ s : ℝ} (hs : 0 < s) : foldedPDF μ s 0 = 2 * Real.exp (-(μ / s) ^ 2 / 2) / (√(2 * π) * s) := by
  rw [folded_cosh hs le_rfl]; simp

theorem folded_mode_zero {μ s : ℝ} (hs : 0 < s) (h : |μ| ≤ s) : IsMode (foldedPDF μ s) 0 := by
  intro x
  rw [folded_zero hs]
  by_cases hx : x < 0
  · unfold foldedPDF; rw [if_pos hx]; positivity
  · rw [folded_cosh hs (not_lt.1 hx)]
    refine mul_le_of_le_one_right (by positivity) ?_
    have h1 := Real.cosh_le_exp_half_sq (μ / s * (x / s))
    have h2 : (μ / s) ^ 2 ≤ 1 := by
      rw [div_pow, div_le_one (by positivity), ← sq_abs]
      exact pow_le_pow_left₀ (abs_nonneg _) h 2
    calc Real.exp (-(x / s) ^ 2 / 2) * Real.cosh (μ / s * (x / s))
        ≤ Real.exp (-(x / s) ^ 2 / 2) * Real.exp ((μ / s * (x / s)) ^ 2 / 2) := by gcongr
      _ = Real.exp (-(x / s) ^ 2 / 2 + (μ / s * (x / s)) ^ 2 / 2) := (Real.exp_add _ _).symm
      _ ≤ Real.exp 0 := by
          apply Real.exp_le_exp.2
          rw [mul_pow]
          nlinarith [sq_nonneg (x / s)]
      _ = 1 := Real.exp_zero

theorem folded_not_mode_zero {μ s : ℝ} (hs : 0 < s) (h : s < |μ|) : ¬ IsMode (foldedPDF μ s) 0 := by
  intro hm
  set r := (μ / s) ^ 2 with hr
  have hr1 : 1 < r := by
    rw [hr, div_pow, one_lt_div (by positivity), ← sq_abs μ]
    exact pow_lt_pow_left₀ h hs.le (by norm_num)
  set w := (r - 1) / (2 * r) with hw
  have hw0 : 0 < w := div_pos (by linarith) (by linarith)
  have hx : 0 ≤ s * √(2 * w) := by positivity
  have h1 := hm (s * √(2 * w))
  rw [folded_zero hs, folded_cosh hs hx] at h1
  have hC : 0 < 2 * Real.exp (-(μ / s) ^ 2 / 2) / (√(2 * π) * s) := by positivity
  have h2 : Real.exp (-(s * √(2 * w) / s) ^ 2 / 2) * Real.cosh (μ / s * (s * √(2 * w) / s)) ≤ 1 := by
    by_contra hc
    have := mul_lt_mul_of_pos_left (not_le.1 hc) hC
    rw [mul_one] at this
    linarith
  rw [mul_div_cancel_left₀ _ hs.ne', Real.sq_sqrt (by positivity)] at h2
  have h3 : 1 + (μ / s * √(2 * w)) ^ 2 / 2 ≤ Real.cosh (μ / s * √(2 * w)) := cosh_ge _
  rw [mul_pow, Real.sq_sqrt (by positivity), ← hr] at h3
  have h4 : 1 - w ≤ Real.exp (-(2 * w) / 2) := by have := Real.add_one_le_exp (-(2 * w) / 2); linarith
  have hrw : r * w * 2 = r - 1 := by rw [hw]; field_simp
  have hw1 : 0 ≤ 1 - w := by nlinarith
  have h5 : (1 - w) * (1 + r * (2 * w) / 2) ≤ 1 :=
    le_trans (mul_le_mul h4 h3 (by positivity) (by positivity)) h2
  nlinarith

theorem folded_not_mode_mu {μ s : ℝ} (hs : 0 < s) (h : 0 < μ) : ¬ IsMode (foldedPDF μ s) μ := by
  intro hm
  have hloc : IsLocalMax (foldedPDF μ s) μ := Filter.Eventually.of_forall hm
  have hd : HasDerivAt (foldedPDF μ s) (-(2 * μ) / s ^ 2 * gaussianPDFReal (-μ) (s ^ 2).toNNReal μ) μ := by
    have h1 := gauss_deriv hs
    have h2 := (h1 μ μ).add (h1 (-μ) μ)
    have h3 := h2.congr_deriv (g' := -(2 * μ) / s ^ 2 * gaussianPDFReal (-μ) (s ^ 2).toNNReal μ) (by rw [sub_self]; ring)
    refine h3.congr_of_eventuallyEq ?_
    filter_upwards [lt_mem_nhds h] with x hx
    unfold foldedPDF
    rw [if_neg (not_lt.2 hx.le), gauss_neg hs]; rfl
  have e := hloc.hasDerivAt_eq_zero hd
  have hg : 0 < gaussianPDFReal (-μ) (s ^ 2).toNNReal μ := gaussianPDFReal_pos _ _ _ (by simp; positivity)
  have : 0 < 2 * μ / s ^ 2 * gaussianPDFReal (-μ) (s ^ 2).toNNReal μ := by positivity
  rw [neg_div, neg_mul] at e
  linarith

/-- the law of `|mu + s Z|` -/
theorem folded_law {μ s : ℝ} (hs : 0 < s) : (gaussianReal 0 1).map (fun z => |μ + s * z|) = Law (foldedPDF μ s) := by
  have hs2 : 0 < s ^ 2 := by positivity
  have hd := (folded_density (μ := μ) hs).2
  have := hd.isProbability
  have hp : IsProbabilityMeasure ((gaussianReal 0 1).map (fun z => |μ + s * z|)) := Measure.isProbabilityMeasure_map (by fun_prop)
  refine Measure.eq_of_cdf _ _ ?_
  ext x
  rw [hd.cdf_law, cdf_eq_real]
  have e : (gaussianReal 0 1).map (fun z => |μ + s * z|) = (gaussianReal μ (s ^ 2).toNNReal).map (fun y => |y|) := by
    rw [gaussian_eq_map μ hs2, Measure.map_map (by fun_prop) (by fun_prop), Real.sqrt_sq hs.le]
    congr 1; ext z; simp [add_comm]
  rw [e, measureReal_def, Measure.map_apply (by fun_prop) measurableSet_Iic]
  unfold foldedCDF
  split_ifs with hx
  · have : (fun y : ℝ => |y|) ⁻¹' Iic x = ∅ := by
      ext y; simp only [mem_preimage, mem_Iic, mem_empty_iff_false, iff_false, not_le]
      exact lt_of_lt_of_le hx (abs_nonneg y)
    rw [this]; simp
  · have hx := not_lt.1 hx
    have hc : ∀ y, (gaussianReal μ (s ^ 2).toNNReal).real (Iic y) = Phi ((y - μ) / s) := fun y => by
      rw [← cdf_eq_real, cdf_gaussian μ hs2, Real.sqrt_sq hs.le]
    have hset : (fun y : ℝ => |y|) ⁻¹' Iic x = Icc (-x) x := by ext y; simp [abs_le]
    have hna : NullSingletonClass (gaussianReal μ (s ^ 2).toNNReal) := nullSingletonClass_gaussianReal (by simp; positivity)
    rw [hset, ← measureReal_def, measureReal_congr (Ioc_ae_eq_Icc (μ := gaussianReal μ (s ^ 2).toNNReal)).symm,
      show Ioc (-x) x = Iic x \ Iic (-x) by ext y; simp [and_comm], measureReal_diff (Iic_subset_Iic.2 (by linarith)) measurableSet_Iic, hc, hc]
end Rstat.Spec
