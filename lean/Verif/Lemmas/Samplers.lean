import Verif.Lemmas.Law
import Verif.Spec.RandDistr
import Verif.Spec.BetaFamilies
import Verif.Lemmas.BetaLog
import Verif.Lemmas.Dist.Exponential
import Verif.Lemmas.Dist.Weibull
import Verif.Lemmas.Dist.Triangular
import Verif.Lemmas.Dist.Uniform
import Verif.Lemmas.Dist.Kumaraswamy
import Verif.Lemmas.Dist.Laplace
import Verif.Lemmas.Dist.Frechet
import Verif.Lemmas.Dist.Gamma
import Mathlib.MeasureTheory.Measure.Lebesgue.Basic
import Mathlib.MeasureTheory.Constructions.BorelSpace.Order

/-! Laws of the documented samplers. -/
namespace Rstat.Spec
open MeasureTheory ProbabilityTheory Set Filter Topology
set_option linter.unusedSectionVars false

theorem law_ext {f F : ℝ → ℝ} (h : IsDensityOf f F) {μ : Measure ℝ} [IsFiniteMeasure μ]
    (hc : ∀ x, μ (Iic x) = ENNReal.ofReal (F x)) : μ = Law f := by
  have := h.isProbability
  refine Measure.ext_of_Iic _ _ fun x => ?_
  rw [hc, h.law_eq _ measurableSet_Iic, ← h.cdf]

theorem unif_std : unif 0 1 = volume.restrict (Icc 0 1) := by
  unfold unif ProbabilityTheory.cond
  rw [Real.volume_Icc, sub_zero, ENNReal.ofReal_one, inv_one, one_smul]

theorem unif_prob {a b : ℝ} (h : a < b) : IsProbabilityMeasure (unif a b) := by
  refine cond_isProbabilityMeasure_of_finite ?_ ?_
  · rw [Real.volume_Icc]; simpa using h
  · rw [Real.volume_Icc]; exact ENNReal.ofReal_ne_top

/-- inverse transform: if `T u ≤ x` exactly when `u ≤ F x`, the law of `T` at a uniform variate has distribution function `F` -/
theorem unif_inverse {T F : ℝ → ℝ} (hT : Measurable T) (h : ∀ u ∈ Ioo (0:ℝ) 1, ∀ x, T u ≤ x ↔ u ≤ F x) (x : ℝ)
    (h1 : F x ≤ 1) : (unif 0 1).map T (Iic x) = ENNReal.ofReal (F x) := by
  rw [unif_std, Measure.map_apply hT measurableSet_Iic, Measure.restrict_congr_set Ioo_ae_eq_Icc.symm,
    Measure.restrict_apply (hT measurableSet_Iic)]
  have e : T ⁻¹' Iic x ∩ Ioo 0 1 = Iic (F x) ∩ Ioo 0 1 := by
    ext u; constructor
    · rintro ⟨a, b⟩; exact ⟨(h u b x).1 a, b⟩
    · rintro ⟨a, b⟩; exact ⟨(h u b x).2 a, b⟩
  rw [e, measure_congr (show (Iic (F x) ∩ Ioo 0 1 : Set ℝ) =ᵐ[volume] (Iic (F x) ∩ Icc 0 1 : Set ℝ) from
    (EventuallyEq.refl _ _).inter Ioo_ae_eq_Icc)]
  have e2 : Iic (F x) ∩ Icc 0 1 = Icc 0 (F x) := by
    ext u; simp only [mem_inter_iff, mem_Iic, mem_Icc]
    constructor
    · rintro ⟨a, b, -⟩; exact ⟨b, a⟩
    · rintro ⟨a, b⟩; exact ⟨b, a, b.trans h1⟩
  rw [e2, Real.volume_Icc, sub_zero]

/-- change of variables `t = x c` on the line -/
theorem lintegral_scale {G : ℝ → ENNReal} (hG : Measurable G) {c : ℝ} (hc : 0 < c) :
    ∫⁻ t, G t = ENNReal.ofReal c * ∫⁻ x, G (x * c) := by
  have h := Real.smul_map_volume_mul_right hc.ne'
  conv_lhs => rw [← h]
  rw [lintegral_smul_measure, lintegral_map hG (measurable_mul_const c), abs_of_pos hc, smul_eq_mul]

/-- law of `X c(Y)` for independent `X ~ f` and `Y ~ g` (with `Y > 0`), when the joint density splits as `h(t) k_t(y)` -/
theorem mixture_law {f g h : ℝ → ℝ} {k : ℝ → ℝ → ℝ} {c : ℝ → ℝ} (hf : Measurable f) (hg : Measurable g) (hc : Measurable c)
    [IsProbabilityMeasure (Law f)] [IsProbabilityMeasure (Law g)]
    (hcp : ∀ y, 0 < y → 0 < c y) (hf0 : ∀ x, 0 ≤ f x) (hg0 : ∀ y, 0 ≤ g y) (hgn : ∀ y, y < 0 → g y = 0) (hh0 : ∀ t, 0 ≤ h t)
    (hk0 : ∀ t y, y < 0 → k t y = 0) (hkm : ∀ t, Measurable (k t))
    (key : ∀ t y, t ≠ 0 → 0 < y → f (t / c y) / c y * g y = h t * k t y)
    (hk : ∀ t, t ≠ 0 → ENNReal.ofReal (h t) * ∫⁻ y, ENNReal.ofReal (k t y) = ENNReal.ofReal (h t)) :
    ((Law f).prod (Law g)).map (fun p => p.1 * c p.2) = Law h := by
  have hm : Measurable fun p : ℝ × ℝ => p.1 * c p.2 := by fun_prop
  ext A hA
  rw [Measure.map_apply hm hA, Measure.prod_apply_symm (hm hA)]
  unfold Law
  have hgm : Measurable fun y => ENNReal.ofReal (g y) := by fun_prop
  have hfm : Measurable fun x => ENNReal.ofReal (f x) := by fun_prop
  have hJ : Measurable fun p : ℝ × ℝ => (A.indicator (fun _ => (1:ENNReal)) p.2) * ENNReal.ofReal (f (p.2 / c p.1) / c p.1 * g p.1) := by
    have h1 : Measurable (A.indicator (fun _ => (1:ENNReal))) := measurable_const.indicator hA
    have h2 : Measurable fun p : ℝ × ℝ => A.indicator (fun _ => (1:ENNReal)) p.2 := h1.comp measurable_snd
    refine Measurable.mul h2 ?_
    fun_prop
  rw [lintegral_withDensity_eq_lintegral_mul _ hgm (by
    have := measurable_measure_prodMk_right (μ := volume.withDensity fun x => ENNReal.ofReal (f x)) (hm hA)
    exact this)]
  have e1 : ∀ y : ℝ, y ≠ 0 → ((fun y => ENNReal.ofReal (g y)) * fun y => (volume.withDensity fun x => ENNReal.ofReal (f x))
      ((fun x => (x, y)) ⁻¹' ((fun p : ℝ × ℝ => p.1 * c p.2) ⁻¹' A))) y =
      ∫⁻ t, A.indicator (fun _ => (1:ENNReal)) t * ENNReal.ofReal (f (t / c y) / c y * g y) := by
    intro y hy
    rcases lt_or_gt_of_ne hy with hy | hy
    · simp [hgn y hy]
    · have hc0 := hcp y hy
      have hJy : Measurable fun t => A.indicator (fun _ => (1:ENNReal)) t * ENNReal.ofReal (f (t / c y) / c y * g y) :=
        hJ.comp (measurable_prodMk_left (x := y))
      rw [lintegral_scale hJy hc0]
      have hset : MeasurableSet ((fun x => (x, y)) ⁻¹' ((fun p : ℝ × ℝ => p.1 * c p.2) ⁻¹' A)) := measurable_prodMk_right (hm hA)
      have hi : Measurable fun x => A.indicator (fun _ => (1:ENNReal)) (x * c y) :=
        (measurable_const.indicator hA).comp (measurable_mul_const _)
      have hJ2 : Measurable fun x => A.indicator (fun _ => (1:ENNReal)) (x * c y) * ENNReal.ofReal (f (x * c y / c y) / c y * g y) :=
        hJy.comp (measurable_mul_const _)
      rw [← lintegral_const_mul _ hJ2]
      beta_reduce
      show ENNReal.ofReal (g y) * (volume.withDensity fun x => ENNReal.ofReal (f x))
        ((fun x => (x, y)) ⁻¹' ((fun p : ℝ × ℝ => p.1 * c p.2) ⁻¹' A)) = _
      rw [withDensity_apply _ hset, ← lintegral_indicator hset, ← lintegral_const_mul _ (hfm.indicator hset)]
      refine lintegral_congr fun x => ?_
      by_cases hx : x * c y ∈ A
      · rw [indicator_of_mem (show x ∈ (fun x => (x, y)) ⁻¹' ((fun p : ℝ × ℝ => p.1 * c p.2) ⁻¹' A) from hx), indicator_of_mem hx, one_mul,
          ← ENNReal.ofReal_mul (hg0 y), ← ENNReal.ofReal_mul hc0.le, mul_div_cancel_right₀ _ hc0.ne']
        congr 1; field_simp
      · rw [indicator_of_notMem (show x ∉ (fun x => (x, y)) ⁻¹' ((fun p : ℝ × ℝ => p.1 * c p.2) ⁻¹' A) from hx), indicator_of_notMem hx]; simp
  rw [lintegral_congr_ae (show _ =ᵐ[volume] fun y => ∫⁻ t, A.indicator (fun _ => (1:ENNReal)) t * ENNReal.ofReal (f (t / c y) / c y * g y) from by
    filter_upwards [compl_mem_ae_iff.2 (measure_singleton (0:ℝ))] with y hy
    exact e1 y hy)]
  rw [lintegral_lintegral_swap hJ.aemeasurable, withDensity_apply _ hA, ← lintegral_indicator hA]
  refine lintegral_congr_ae ?_
  filter_upwards [compl_mem_ae_iff.2 (measure_singleton (0:ℝ))] with t ht
  by_cases hx : t ∈ A
  · rw [indicator_of_mem hx, indicator_of_mem hx, ← hk t ht,
      ← lintegral_const_mul _ (by have := hkm t; fun_prop)]
    refine lintegral_congr_ae ?_
    filter_upwards [compl_mem_ae_iff.2 (measure_singleton (0:ℝ))] with y hy
    rw [one_mul, ← ENNReal.ofReal_mul (hh0 t)]
    rcases lt_or_gt_of_ne (show y ≠ 0 from hy) with hy | hy
    · rw [hgn y hy, hk0 t y hy, mul_zero, mul_zero]
    · rw [key t y ht hy]
  · rw [indicator_of_notMem hx, indicator_of_notMem hx]; simp

theorem gamma_law (a r : ℝ) : gammaMeasure a r = Law (gammaPDFReal a r) := rfl

/-- Student's law -/
theorem student_law {n : ℝ} (hn : 0 < n) :
    ((gaussianReal 0 1).prod (chi2 n)).map (fun p => p.1 * √(n / p.2)) = Law (studentPDF n) := by
  have hn2 : 0 < n / 2 := by positivity
  have hg : gaussianReal 0 1 = Law (gaussianPDFReal 0 1) := by
    rw [gaussianReal_of_var_ne_zero _ one_ne_zero]; rfl
  have hchi : chi2 n = Law (gammaPDFReal (n / 2) (1 / 2)) := rfl
  have i1 : IsProbabilityMeasure (Law (gaussianPDFReal 0 1)) := hg ▸ inferInstance
  have i2 : IsProbabilityMeasure (Law (gammaPDFReal (n / 2) (1 / 2))) :=
    hchi ▸ isProbabilityMeasure_gammaMeasure hn2 (by norm_num)
  have hq : ∀ t : ℝ, 0 < (1 + t ^ 2 / n) / 2 := fun t => by positivity
  have hG1 : 0 < Real.Gamma (n / 2) := Real.Gamma_pos_of_pos hn2
  have hG2 : 0 < Real.Gamma ((n + 1) / 2) := Real.Gamma_pos_of_pos (by positivity)
  rw [hg, hchi]
  refine mixture_law (k := fun t => gammaPDFReal ((n + 1) / 2) ((1 + t ^ 2 / n) / 2)) (measurable_gaussianPDFReal 0 1)
    (measurable_gammaPDFReal _ _) (by fun_prop) (fun y hy => Real.sqrt_pos.2 (by positivity)) (fun x => gaussianPDFReal_nonneg _ _ _)
    (fun y => gammaPDFReal_nonneg hn2 (by norm_num) y) (fun y hy => ?_) (fun t => ?_) (fun t y hy => ?_)
    (fun t => measurable_gammaPDFReal _ _) (fun t y _ hy => ?_) (fun t _ => ?_)
  · unfold gammaPDFReal; rw [if_neg (not_le.2 hy)]
  · unfold studentPDF; positivity
  · unfold gammaPDFReal; rw [if_neg (not_le.2 hy)]
  · unfold gaussianPDFReal gammaPDFReal studentPDF
    rw [if_pos hy.le, if_pos hy.le]
    have hc : 0 < √(n / y) := Real.sqrt_pos.2 (by positivity)
    have hsq : √(n / y) ^ 2 = n / y := Real.sq_sqrt (by positivity)
    have hsn : √n = √(n / y) * √y := by rw [← Real.sqrt_mul (by positivity), div_mul_cancel₀ _ hy.ne']
    have hyp : y ^ ((n + 1) / 2 - 1) = y ^ (n / 2 - 1) * √y := by
      rw [Real.sqrt_eq_rpow, ← Real.rpow_add hy]; congr 1; ring
    have h1 : ((1 + t ^ 2 / n) / 2) ^ ((n + 1) / 2) = (1 + t ^ 2 / n) ^ ((n + 1) / 2) * ((1 / 2) ^ (n / 2) * (1 / √2)) := by
      rw [div_eq_mul_one_div, Real.mul_rpow (by positivity) (by norm_num), show (n + 1) / 2 = n / 2 + 1 / 2 by ring,
        Real.rpow_add (show (0:ℝ) < 1 / 2 by norm_num), ← Real.sqrt_eq_rpow (1 / 2), Real.sqrt_div zero_le_one, Real.sqrt_one]
    have h2 : (1 + t ^ 2 / n) ^ (-(n + 1) / 2) = ((1 + t ^ 2 / n) ^ ((n + 1) / 2))⁻¹ := by
      rw [neg_div, Real.rpow_neg (by positivity)]
    have h3 : Real.exp (-((1 + t ^ 2 / n) / 2 * y)) = Real.exp (-(t / √(n / y)) ^ 2 / 2) * Real.exp (-(1 / 2 * y)) := by
      rw [← Real.exp_add, div_pow, hsq]; congr 1; field_simp; ring
    rw [h1, h2, h3, hyp, Real.sqrt_mul hn.le, hsn]
    have h4 : (0:ℝ) < (1 + t ^ 2 / n) ^ ((n + 1) / 2) := by positivity
    have h5 : (0:ℝ) < √y := Real.sqrt_pos.2 hy
    have h6 : (0:ℝ) < √Real.pi := Real.sqrt_pos.2 Real.pi_pos
    have h7 : (0:ℝ) < √2 := by positivity
    simp only [sub_zero, NNReal.coe_one, mul_one]
    rw [Real.sqrt_mul two_pos.le]
    generalize (1 + t ^ 2 / n) ^ ((n + 1) / 2) = A at *
    generalize Real.exp (-(t / √(n / y)) ^ 2 / 2) = B at *
    generalize √(n / y) = C at *
    generalize Real.Gamma (n / 2) = D at *
    generalize Real.Gamma ((n + 1) / 2) = E at *
    generalize y ^ (n / 2 - 1) = F at *
    generalize ((1:ℝ) / 2) ^ (n / 2) = H at *
    field_simp
  · have := lintegral_gammaPDF_eq_one (a := (n + 1) / 2) (by positivity) (hq t)
    unfold gammaPDF at this
    rw [this, mul_one]

/-- Fisher's law -/
theorem fisher_law {m n : ℝ} (hm : 0 < m) (hn : 0 < n) :
    ((chi2 m).prod (chi2 n)).map (fun p => p.1 / m / (p.2 / n)) = Law (fPDF m n) := by
  have hn2 : 0 < n / 2 := by positivity
  have hm2 : 0 < m / 2 := by positivity
  have hchi : ∀ k, chi2 k = Law (gammaPDFReal (k / 2) (1 / 2)) := fun _ => rfl
  have i1 : IsProbabilityMeasure (Law (gammaPDFReal (m / 2) (1 / 2))) :=
    hchi m ▸ isProbabilityMeasure_gammaMeasure hm2 (by norm_num)
  have i2 : IsProbabilityMeasure (Law (gammaPDFReal (n / 2) (1 / 2))) :=
    hchi n ▸ isProbabilityMeasure_gammaMeasure hn2 (by norm_num)
  have hG1 : 0 < Real.Gamma (n / 2) := Real.Gamma_pos_of_pos hn2
  have hG2 : 0 < Real.Gamma (m / 2) := Real.Gamma_pos_of_pos hm2
  have hG3 : 0 < Real.Gamma (m / 2 + n / 2) := Real.Gamma_pos_of_pos (by positivity)
  have hB := Beta_pos hm2 hn2
  have hfun : (fun p : ℝ × ℝ => p.1 / m / (p.2 / n)) = fun p => p.1 * (n / (m * p.2)) := by
    ext p; rw [div_div, mul_div_assoc', div_div_eq_mul_div, mul_div_assoc]
  rw [hchi m, hchi n, hfun]
  refine mixture_law (k := fun t y => if 0 < t then gammaPDFReal ((m + n) / 2) ((1 + m * t / n) / 2) y else 0) (c := fun y => n / (m * y))
    (measurable_gammaPDFReal _ _) (measurable_gammaPDFReal _ _) (by fun_prop) (fun y hy => by positivity)
    (fun x => gammaPDFReal_nonneg hm2 (by norm_num) x)
    (fun y => gammaPDFReal_nonneg hn2 (by norm_num) y) (fun y hy => ?_) (fun t => ?_) (fun t y hy => ?_)
    (fun t => ?_) (fun t y ht hy => ?_) (fun t ht => ?_)
  · unfold gammaPDFReal; rw [if_neg (not_le.2 hy)]
  · unfold fPDF; split
    · exact le_rfl
    · rename_i h; push Not at h; positivity
  · split
    · unfold gammaPDFReal; rw [if_neg (not_le.2 hy)]
    · rfl
  · split
    · exact measurable_gammaPDFReal _ _
    · exact measurable_const
  · have hc : 0 < n / (m * y) := by positivity
    rcases lt_or_gt_of_ne ht with h | h
    · have : t / (n / (m * y)) < 0 := div_neg_of_neg_of_pos h hc
      unfold fPDF gammaPDFReal
      rw [if_neg (not_le.2 this), if_pos h.le]; ring
    · rw [if_pos h]
      have h0 : 0 < t / (n / (m * y)) := by positivity
      unfold gammaPDFReal fPDF
      rw [if_pos h0.le, if_pos hy.le, if_pos hy.le, if_neg (not_le.2 h)]
      have e1 : t / (n / (m * y)) = m * t / n * y := by field_simp
      have hmt : 0 < m * t := by positivity
      have e2 : √((m * t) ^ m * n ^ n / (m * t + n) ^ (m + n)) = (m * t) ^ (m / 2) * n ^ (n / 2) / (m * t + n) ^ ((m + n) / 2) := by
        rw [Real.sqrt_div (by positivity), Real.sqrt_mul (by positivity), Real.sqrt_eq_rpow, Real.sqrt_eq_rpow, Real.sqrt_eq_rpow,
          ← Real.rpow_mul hmt.le, ← Real.rpow_mul hn.le, ← Real.rpow_mul (by positivity)]
        simp only [mul_one_div]
      have e3 : ((1 + m * t / n) / 2) ^ ((m + n) / 2) = (m * t + n) ^ ((m + n) / 2) / (n ^ (m / 2) * n ^ (n / 2)) *
          ((1 / 2) ^ (m / 2) * (1 / 2) ^ (n / 2)) := by
        rw [show (1 + m * t / n) / 2 = (m * t + n) / n * (1 / 2) by field_simp; ring, Real.mul_rpow (by positivity) (by norm_num),
          Real.div_rpow (by positivity) hn.le, add_div, Real.rpow_add hn, Real.rpow_add (show (0:ℝ) < 1 / 2 by norm_num)]
      have e4 : (m * t / n * y) ^ (m / 2 - 1) = (m * t) ^ (m / 2) / (m * t) * (n / n ^ (m / 2)) * (y ^ (m / 2) / y) := by
        rw [Real.mul_rpow (by positivity) hy.le, Real.div_rpow hmt.le hn.le, Real.rpow_sub_one hmt.ne', Real.rpow_sub_one hn.ne',
          Real.rpow_sub_one hy.ne']
        field_simp
      have e5 : y ^ ((m + n) / 2 - 1) = y ^ (m / 2) * y ^ (n / 2 - 1) := by
        rw [← Real.rpow_add hy]; congr 1; ring
      have e6 : Real.exp (-((1 + m * t / n) / 2 * y)) = Real.exp (-(1 / 2 * (m * t / n * y))) * Real.exp (-(1 / 2 * y)) := by
        rw [← Real.exp_add]; congr 1; ring
      have e7 : Beta (m / 2) (n / 2) = Real.Gamma (m / 2) * Real.Gamma (n / 2) / Real.Gamma (m / 2 + n / 2) := rfl
      rw [e1, e2, e3, e4, e5, e6, e7, show (m + n) / 2 = m / 2 + n / 2 by ring]
      have q1 : (0:ℝ) < (m * t + n) ^ (m / 2 + n / 2) := by positivity
      have q2 : (0:ℝ) < n ^ (m / 2) := by positivity
      have q3 : (0:ℝ) < n ^ (n / 2) := by positivity
      generalize (m * t + n) ^ (m / 2 + n / 2) = A at *
      generalize n ^ (m / 2) = B1 at *
      generalize n ^ (n / 2) = C at *
      generalize (m * t) ^ (m / 2) = D at *
      generalize y ^ (m / 2) = E at *
      generalize y ^ (n / 2 - 1) = F at *
      generalize ((1:ℝ) / 2) ^ (m / 2) = H at *
      generalize ((1:ℝ) / 2) ^ (n / 2) = I at *
      generalize Real.Gamma (m / 2) = G1 at *
      generalize Real.Gamma (n / 2) = G2 at *
      generalize Real.Gamma (m / 2 + n / 2) = G3 at *
      generalize Real.exp (-(1 / 2 * (m * t / n * y))) = J at *
      field_simp
  · rcases lt_or_gt_of_ne ht with h | h
    · unfold fPDF; rw [if_pos h.le]; simp
    · simp only [if_pos h]
      have := lintegral_gammaPDF_eq_one (a := (m + n) / 2) (r := (1 + m * t / n) / 2) (by positivity) (by positivity)
      unfold gammaPDF at this
      rw [this, mul_one]

theorem pareto_law (t r : ℝ) : paretoMeasure t r = Law (paretoPDF t r) := by
  have : ∀ x, ProbabilityTheory.paretoPDFReal t r x = paretoPDF t r x := fun x => by
    unfold ProbabilityTheory.paretoPDFReal Spec.paretoPDF
    by_cases h : t ≤ x
    · rw [if_pos h, if_neg (not_lt.2 h)]
    · rw [if_neg h, if_pos (not_le.1 h)]
  unfold paretoMeasure Law ProbabilityTheory.paretoPDF
  simp only [this]

theorem cauchy_law {x : ℝ} {γ : NNReal} (h : 0 < γ) : cauchyMeasure x γ = Law (cauchyDensity x γ) := by
  rw [cauchyMeasure_of_scale_ne_zero x h.ne']
  have : ∀ t, cauchyPDFReal x γ t = cauchyDensity x γ t := fun t => by
    rw [cauchyPDFReal_def', cauchyDensity, NNReal.coe_inv]
    rw [one_div, mul_inv, mul_inv]
  unfold Law cauchyPDF
  simp only [this]

theorem unif_law {a b : ℝ} (h : a < b) : unif a b = Law (uniformPDF a b) := by
  unfold unif ProbabilityTheory.cond Law
  have e : (fun x => ENNReal.ofReal (uniformPDF a b x)) = (Icc a b).indicator fun _ => (ENNReal.ofReal (b - a))⁻¹ := by
    ext x
    unfold uniformPDF
    by_cases hx : a ≤ x ∧ x ≤ b
    · rw [if_pos hx, indicator_of_mem (show x ∈ Icc a b from hx), one_div, ENNReal.ofReal_inv_of_pos (by linarith)]
    · rw [if_neg hx, indicator_of_notMem (show x ∉ Icc a b from hx), ENNReal.ofReal_zero]
  rw [e, withDensity_indicator measurableSet_Icc, withDensity_const, Real.volume_Icc]

theorem weibull_law {l k : ℝ} (hl : 0 < l) (hk : 0 < k) :
    (expMeasure 1).map (fun e => l * e ^ (1 / k)) = Law (weibullPDF l k) := by
  have hm : Measurable fun e : ℝ => l * e ^ (1 / k) := by fun_prop
  have : IsProbabilityMeasure (expMeasure 1) := isProbabilityMeasure_expMeasure one_pos
  have : IsProbabilityMeasure ((expMeasure 1).map fun e : ℝ => l * e ^ (1 / k)) := Measure.isProbabilityMeasure_map hm.aemeasurable
  have hE := (exp_density one_pos).2
  refine law_ext (weibull_density hl hk).2 fun x => ?_
  rw [Measure.map_apply hm measurableSet_Iic]
  have hpos : (expMeasure 1) (Iic 0) = 0 := by
    rw [← law_exp, hE.law_eq _ measurableSet_Iic, ← hE.cdf, expCDF, if_pos le_rfl, ENNReal.ofReal_zero]
  have key : ∀ e : ℝ, 0 < e → (l * e ^ (1 / k) ≤ x ↔ 0 < x ∧ e ≤ (x / l) ^ k) := fun e he => by
    have h0 : 0 < e ^ (1 / k) := by positivity
    constructor
    · intro h
      have hx : 0 < x := lt_of_lt_of_le (by positivity) h
      refine ⟨hx, ?_⟩
      have : e ^ (1 / k) ≤ x / l := by rw [le_div_iff₀ hl]; linarith
      calc e = (e ^ (1 / k)) ^ k := by rw [← Real.rpow_mul he.le, one_div, inv_mul_cancel₀ hk.ne', Real.rpow_one]
        _ ≤ _ := Real.rpow_le_rpow h0.le this hk.le
    · rintro ⟨hx, h⟩
      have : e ^ (1 / k) ≤ ((x / l) ^ k) ^ (1 / k) := Real.rpow_le_rpow he.le h (by positivity)
      rw [← Real.rpow_mul (by positivity), mul_one_div, div_self hk.ne', Real.rpow_one, le_div_iff₀ hl] at this
      linarith
  have hae : ∀ᵐ e ∂expMeasure 1, 0 < e := by
    rw [ae_iff]; convert hpos using 2; ext e; simp
  rw [weibullCDF]
  by_cases hx : x ≤ 0
  · rw [if_pos hx, ENNReal.ofReal_zero, measure_eq_zero_iff_ae_notMem]
    filter_upwards [hae] with e he h
    exact absurd ((key e he).1 h).1 (not_lt.2 hx)
  · rw [if_neg hx]
    push Not at hx
    have e : (fun e : ℝ => l * e ^ (1 / k)) ⁻¹' Iic x =ᵐ[expMeasure 1] Iic ((x / l) ^ k) := by
      filter_upwards [hae] with e he
      exact propext ⟨fun h => ((key e he).1 h).2, fun h => (key e he).2 ⟨hx, h⟩⟩
    have hp : 0 < (x / l) ^ k := by positivity
    rw [measure_congr e, ← law_exp, hE.law_eq _ measurableSet_Iic, ← hE.cdf, expCDF, if_neg (not_le.2 hp), one_mul]

theorem triangularDraw_measurable (lo hi m : ℝ) : Measurable (triangularDraw lo hi m) := by
  unfold triangularDraw
  exact Measurable.ite (measurableSet_lt (by fun_prop) measurable_const) (by fun_prop) (by fun_prop)

theorem triangular_law {lo hi m : ℝ} (h1 : lo < m) (h2 : m < hi) :
    (unif 0 1).map (triangularDraw lo hi m) = Law (triangularPDF lo hi m) := by
  have hm := triangularDraw_measurable lo hi m
  have := unif_prob zero_lt_one
  have : IsProbabilityMeasure ((unif 0 1).map (triangularDraw lo hi m)) := Measure.isProbabilityMeasure_map hm.aemeasurable
  have hD := tri_density h1 h2
  refine law_ext hD.2 fun x => unif_inverse hm (fun u hu x => ?_) x (hD.1.le_one x)
  obtain ⟨u0, u1⟩ := hu
  have p0 : 0 < m - lo := by linarith
  have q0 : 0 < hi - m := by linarith
  have w0 : 0 < hi - lo := by linarith
  unfold triangularDraw triangularCDF
  by_cases hu : u * (hi - lo) < m - lo
  · rw [if_pos hu]
    have hs : 0 < √(u * (hi - lo) * (m - lo)) := Real.sqrt_pos.2 (by positivity)
    have hs2 : √(u * (hi - lo) * (m - lo)) ≤ m - lo := by
      rw [Real.sqrt_le_left p0.le]; nlinarith
    by_cases c1 : x ≤ lo
    · rw [if_pos c1]; constructor <;> intro h <;> linarith
    · rw [if_neg c1]; push Not at c1
      by_cases c2 : x ≤ m
      · rw [if_pos c2, le_div_iff₀ (by positivity), ← le_sub_iff_add_le', Real.sqrt_le_left (by linarith), mul_assoc]
      · rw [if_neg c2]; push Not at c2
        by_cases c3 : x < hi
        · rw [if_pos c3]
          refine ⟨fun _ => ?_, fun _ => by linarith⟩
          rw [le_sub_comm, div_le_iff₀ (by positivity)]
          have : (hi - x) ^ 2 ≤ (hi - m) ^ 2 := pow_le_pow_left₀ (by linarith) (by linarith) 2
          nlinarith
        · rw [if_neg c3]; push Not at c3
          exact ⟨fun _ => u1.le, fun _ => by linarith⟩
  · rw [if_neg hu]; push Not at hu
    have ha : 0 ≤ (hi - lo - u * (hi - lo)) * (hi - m) := by
      have : 0 ≤ (1 - u) * (hi - lo) := by
        have : 0 ≤ 1 - u := by linarith
        positivity
      have : 0 ≤ hi - lo - u * (hi - lo) := by linarith
      positivity
    have hs2 : √((hi - lo - u * (hi - lo)) * (hi - m)) ≤ hi - m := by
      rw [Real.sqrt_le_left q0.le]; nlinarith
    have hs0 := Real.sqrt_nonneg ((hi - lo - u * (hi - lo)) * (hi - m))
    by_cases c1 : x ≤ lo
    · rw [if_pos c1]; constructor <;> intro h <;> linarith
    · rw [if_neg c1]; push Not at c1
      by_cases c2 : x ≤ m
      · rw [if_pos c2, le_div_iff₀ (by positivity)]
        constructor
        · intro h
          have hx : x = m := by linarith
          have : hi - m ≤ √((hi - lo - u * (hi - lo)) * (hi - m)) := by linarith
          rw [Real.le_sqrt' q0] at this
          have : hi - m ≤ hi - lo - u * (hi - lo) := by nlinarith
          subst hx
          nlinarith
        · intro h
          have e1 : (x - lo) ^ 2 ≤ (m - lo) ^ 2 := pow_le_pow_left₀ (by linarith) (by linarith) 2
          have e2 : u * (hi - lo) * (m - lo) ≤ (x - lo) ^ 2 := by linarith
          have e3 : u * (hi - lo) = m - lo := le_antisymm (by nlinarith) hu
          rw [e3] at e2
          have e4 : m - lo ≤ x - lo := abs_le_of_sq_le_sq' (by nlinarith) (by linarith) |>.2
          have hx : x = m := by linarith
          have : √((hi - lo - u * (hi - lo)) * (hi - m)) = hi - m := by
            rw [show (hi - lo - u * (hi - lo)) * (hi - m) = (hi - m) * (hi - m) by rw [e3]; ring, Real.sqrt_mul_self q0.le]
          linarith
      · rw [if_neg c2]; push Not at c2
        by_cases c3 : x < hi
        · rw [if_pos c3, sub_le_comm, Real.le_sqrt' (by linarith), le_sub_comm, div_le_iff₀ (by positivity)]
          constructor <;> intro h <;> nlinarith
        · rw [if_neg c3]; push Not at c3
          exact ⟨fun _ => u1.le, fun _ => by linarith⟩
end Rstat.Spec
