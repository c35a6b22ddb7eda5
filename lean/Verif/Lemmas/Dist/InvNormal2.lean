import Verif.Lemmas.Dist.InvNormal

/-! The inverse Gaussian law: entropy, mode, and the two-root sampling scheme. -/
namespace Rstat.Spec
open MeasureTheory Filter Topology Set Real ProbabilityTheory

section
variable {μ l : ℝ}

theorem ig_pdf_pos (hl : 0 < l) {x : ℝ} (hx : 0 < x) : 0 < invNormalPDF μ l x := by
  have := pi_pos
  unfold invNormalPDF
  rw [if_neg (not_le.2 hx)]
  positivity

theorem ig_log (hl : 0 < l) {x : ℝ} (hx : 0 < x) :
    Real.log (invNormalPDF μ l x) =
      Real.log (l / (2 * π)) / 2 - 3 / 2 * Real.log x - l * (x - μ) ^ 2 / (2 * μ ^ 2 * x) := by
  have := pi_pos
  unfold invNormalPDF
  rw [if_neg (not_le.2 hx), Real.log_mul (by positivity) (Real.exp_pos _).ne', Real.log_exp, Real.log_sqrt (by positivity),
    show l / (2 * π * x ^ 3) = l / (2 * π) / x ^ 3 by field_simp, Real.log_div (by positivity) (by positivity), Real.log_pow]
  push_cast; ring

theorem igW_f (hm : 0 < μ) (hl : 0 < l) {x : ℝ} (hx : 0 < x) (j : ℕ) : igW μ l j x = x ^ j * (invNormalPDF μ l x / x) := by
  unfold igW invNormalPDF
  rw [if_neg (not_le.2 hx), ig_pdf_eq hm hl hx]

theorem ig_log_int (hm : 0 < μ) (hl : 0 < l) : IntegrableOn (fun x => Real.log x * invNormalPDF μ l x) (Ioi 0) := by
  have hi : IntegrableOn (fun x => igW μ l 2 x + igW μ l 0 x) (Ioi 0) := (igW_int hm hl 2).add (igW_int hm hl 0)
  refine Integrable.mono' hi ?_ ?_
  · refine AEStronglyMeasurable.mul (Real.measurable_log.aestronglyMeasurable) ?_
    exact (invNormal_density hm hl).2.integrable.1.restrict
  · filter_upwards [self_mem_ae_restrict measurableSet_Ioi] with x hx
    have hx : 0 < x := hx
    have hf := ig_pdf_pos (μ := μ) hl hx
    rw [igW_f hm hl hx, igW_f hm hl hx, norm_mul, Real.norm_of_nonneg hf.le, Real.norm_eq_abs]
    have e : x ^ 2 * (invNormalPDF μ l x / x) + x ^ 0 * (invNormalPDF μ l x / x) = (x + 1 / x) * invNormalPDF μ l x := by
      field_simp
    rw [e]
    refine mul_le_mul_of_nonneg_right (abs_le.2 ⟨?_, ?_⟩) hf.le
    · have := Real.one_sub_inv_le_log_of_pos hx
      rw [one_div]; linarith
    · have := Real.log_le_sub_one_of_pos hx
      have : 0 < 1 / x := by positivity
      linarith

theorem igW_zero (hm : 0 < μ) (hl : 0 < l) : ∫ x in Ioi 0, igW μ l 0 x = 1 / μ + 1 / l := by
  have r := igW_rec hm hl 0
  simp only [Nat.reduceAdd, zero_add] at r
  rw [igW_one hm hl, igW_two hm hl] at r
  push_cast at r; field_simp at r ⊢; linarith

/-- the mean of the logarithm lies strictly below the logarithm of the mean -/
theorem ig_mean_log (hm : 0 < μ) (hl : 0 < l) : ∫ x in Ioi 0, Real.log x * invNormalPDF μ l x < Real.log μ := by
  have i1 := igW_int hm hl 1
  have i2 := igW_int hm hl 2
  have il := ig_log_int hm hl
  have ia : IntegrableOn (fun x => 1 / μ * igW μ l 2 x - (1 - Real.log μ) * igW μ l 1 x) (Ioi 0) :=
    (i2.const_mul _).sub (i1.const_mul _)
  have ib : IntegrableOn (fun x => 1 / μ * igW μ l 2 x - (1 - Real.log μ) * igW μ l 1 x - Real.log x * invNormalPDF μ l x) (Ioi 0) :=
    ia.sub il
  have e : ∫ x in Ioi 0, (1 / μ * igW μ l 2 x - (1 - Real.log μ) * igW μ l 1 x - Real.log x * invNormalPDF μ l x) =
      Real.log μ - ∫ x in Ioi 0, Real.log x * invNormalPDF μ l x := by
    rw [integral_sub ia il, integral_sub (i2.const_mul _) (i1.const_mul _), integral_const_mul, integral_const_mul, igW_one hm hl,
      igW_two hm hl]
    field_simp; ring
  have val : ∀ x, 0 < x → 1 / μ * igW μ l 2 x - (1 - Real.log μ) * igW μ l 1 x - Real.log x * invNormalPDF μ l x =
      (x / μ - 1 - Real.log (x / μ)) * invNormalPDF μ l x := fun x hx => by
    rw [igW_f hm hl hx, igW_f hm hl hx, Real.log_div hx.ne' hm.ne']; field_simp; ring
  have hpos : 0 < ∫ x in Ioi 0, (1 / μ * igW μ l 2 x - (1 - Real.log μ) * igW μ l 1 x - Real.log x * invNormalPDF μ l x) := by
    rw [integral_pos_iff_support_of_nonneg_ae ?_ ib]
    · refine lt_of_lt_of_le ?_ (measure_mono (show Ioi μ ⊆ _ from fun x hx => ?_))
      · rw [Measure.restrict_apply measurableSet_Ioi, inter_eq_left.2 (Ioi_subset_Ioi hm.le)]; simp
      · have hx : μ < x := hx
        have h0 : 0 < x := hm.trans hx
        have hu : 1 < x / μ := (one_lt_div hm).2 hx
        have := Real.log_lt_sub_one_of_pos (by linarith) hu.ne'
        have hf := ig_pdf_pos (μ := μ) hl h0
        rw [Function.mem_support, val x h0]
        exact (mul_pos (by linarith) hf).ne'
    · filter_upwards [self_mem_ae_restrict measurableSet_Ioi] with x hx
      rw [val x hx]
      have := Real.log_le_sub_one_of_pos (show 0 < x / μ from div_pos hx hm)
      exact mul_nonneg (by linarith) (ig_pdf_pos (μ := μ) hl hx).le
  linarith

theorem invNormal_entropy (hm : 0 < μ) (hl : 0 < l) :
    HasEntropy (invNormalPDF μ l)
      (Real.log (2 * π * Real.exp 1 / l) / 2 + 3 / 2 * ∫ x in Ioi 0, Real.log x * invNormalPDF μ l x) := by
  have hp := pi_pos
  have i0 := igW_int hm hl 0
  have i1 := igW_int hm hl 1
  have i2 := igW_int hm hl 2
  have il := ig_log_int hm hl
  have ia : IntegrableOn (fun x => (Real.log (l / (2 * π)) / 2 + l / μ) * igW μ l 1 x - 3 / 2 * (Real.log x * invNormalPDF μ l x)) (Ioi 0) :=
    (i1.const_mul _).sub (il.const_mul _)
  have ic : IntegrableOn (fun x => l / (2 * μ ^ 2) * igW μ l 2 x + l / 2 * igW μ l 0 x) (Ioi 0) := (i2.const_mul _).add (i0.const_mul _)
  have key := supp_integral_Ioi (a := 0) (F := fun x => invNormalPDF μ l x * Real.log (invNormalPDF μ l x))
    (G := fun x => (Real.log (l / (2 * π)) / 2 + l / μ) * igW μ l 1 x - 3 / 2 * (Real.log x * invNormalPDF μ l x)
      - (l / (2 * μ ^ 2) * igW μ l 2 x + l / 2 * igW μ l 0 x)) (fun x hx => ?_) (fun x hx => ?_) (ia.sub ic)
  · refine ⟨key.1, ?_⟩
    rw [key.2, integral_sub ia ic, integral_sub (i1.const_mul _) (il.const_mul _), integral_add (i2.const_mul _) (i0.const_mul _)]
    simp only [integral_const_mul]
    rw [igW_one hm hl, igW_two hm hl, igW_zero hm hl, Real.log_div hl.ne' (by positivity), Real.log_div (by positivity) hl.ne',
      Real.log_mul (by positivity) (Real.exp_pos _).ne', Real.log_exp]
    field_simp; ring
  · rw [ig_log hl hx, igW_f hm hl hx, igW_f hm hl hx, igW_f hm hl hx]
    field_simp; ring
  · unfold invNormalPDF; rw [if_pos hx.le, zero_mul]

/-- the unique mode -/
theorem invNormal_mode (hm : 0 < μ) (hl : 0 < l) {x0 : ℝ} (h0 : 0 < x0) (hr : l * x0 ^ 2 + 3 * μ ^ 2 * x0 = l * μ ^ 2) {x : ℝ} (hx : x ≠ x0) :
    invNormalPDF μ l x < invNormalPDF μ l x0 := by
  have hf := ig_pdf_pos (μ := μ) hl h0
  by_cases hx0 : x ≤ 0
  · rw [show invNormalPDF μ l x = 0 from if_pos hx0]; exact hf
  · have hx0 : 0 < x := not_le.1 hx0
    rw [← Real.log_lt_log_iff (ig_pdf_pos hl hx0) hf, ig_log hl hx0, ig_log hl h0]
    have hu : 0 < x0 / x := by positivity
    have hu1 : x0 / x ≠ 1 := fun e => hx (by field_simp at e; exact e.symm)
    have hlog := Real.log_lt_sub_one_of_pos hu hu1
    rw [Real.log_div h0.ne' hx0.ne'] at hlog
    have e : 3 / 2 * (x0 / x - 1) - l * (x - μ) ^ 2 / (2 * μ ^ 2 * x) + l * (x0 - μ) ^ 2 / (2 * μ ^ 2 * x0) =
        -(l * (x - x0) ^ 2 / (2 * μ ^ 2 * x)) := by
      field_simp
      linear_combination (x0 - x) * hr
    have : 0 ≤ l * (x - x0) ^ 2 / (2 * μ ^ 2 * x) := by positivity
    linarith

/-- the smaller root drawn by the sampler, as a function of the normal variate -/
noncomputable def igX (μ l ν : ℝ) : ℝ :=
  μ + μ * μ * (ν * ν) / 2 / l - μ / 2 / l * √(4 * μ * l * (ν * ν) + μ * μ * (ν * ν) * (ν * ν))

theorem igX_A (hm : 0 < μ) (hl : 0 < l) {y : ℝ} (hy : 0 < y) : igX μ l (igA μ l y) = if y ≤ μ then y else μ ^ 2 / y := by
  unfold igX
  rw [← sq (igA μ l y), igA_sq hm hl hy]
  have e : 4 * μ * l * (l * y / μ ^ 2 - 2 * l / μ + l / y) +
      μ * μ * (l * y / μ ^ 2 - 2 * l / μ + l / y) * (l * y / μ ^ 2 - 2 * l / μ + l / y) = (l * (y ^ 2 - μ ^ 2) / (μ * y)) ^ 2 := by
    field_simp; ring
  rw [e, Real.sqrt_sq_eq_abs]
  by_cases h : y ≤ μ
  · rw [if_pos h, abs_of_nonpos]
    · field_simp; ring
    · refine div_nonpos_of_nonpos_of_nonneg (mul_nonpos_of_nonneg_of_nonpos hl.le ?_) (by positivity)
      nlinarith
  · rw [if_neg h, abs_of_nonneg]
    · field_simp; ring
    · have : μ < y := not_le.1 h
      refine div_nonneg (mul_nonneg hl.le ?_) (by positivity)
      nlinarith

theorem igA_image (hm : 0 < μ) (hl : 0 < l) : igA μ l '' Ioi 0 = univ ∧ InjOn (igA μ l) (Ioi 0) := by
  have hc : ContinuousOn (igA μ l) (Ioi 0) := fun x hx => (igA_deriv hm hx).continuousAt.continuousWithinAt
  have hs : 0 < √l := Real.sqrt_pos.2 hl
  have hmono : StrictMonoOn (igA μ l) (Ioi 0) := by
    refine strictMonoOn_of_deriv_pos (convex_Ioi 0) hc fun x hx => ?_
    rw [interior_Ioi] at hx
    have hx : 0 < x := hx
    rw [(igA_deriv hm hx).deriv]
    have := Real.sqrt_pos.2 hx
    positivity
  refine ⟨eq_univ_of_forall fun v => ?_, hmono.injOn⟩
  obtain ⟨a, hav, ha⟩ := (((igA_zero (μ := μ) hl).eventually_lt_atBot v).and self_mem_nhdsWithin).exists
  obtain ⟨b, hbv, hb⟩ := (((igA_top hm hl).eventually_gt_atTop v).and (eventually_gt_atTop a)).exists
  have ha : 0 < a := ha
  obtain ⟨c, hc1, hc2⟩ := intermediate_value_Icc hb.le (hc.mono fun x hx => ha.trans_le hx.1) ⟨hav.le, hbv.le⟩
  exact ⟨c, ha.trans_le hc1.1, hc2⟩

theorem igX_pos (hm : 0 < μ) (hl : 0 < l) (ν : ℝ) : 0 < igX μ l ν := by
  obtain ⟨y, hy, rfl⟩ := (igA_image hm hl).1 ▸ mem_univ ν
  have hy : 0 < y := hy
  rw [igX_A hm hl hy]
  split_ifs <;> positivity

/-- the value returned for normal variate `ν` and uniform variate `z` -/
noncomputable def igOut (μ l ν z : ℝ) : ℝ := if z < μ / (μ + igX μ l ν) then igX μ l ν else μ * μ / igX μ l ν

theorem igOut_measurable : Measurable fun p : ℝ × ℝ => igOut μ l p.1 p.2 := by
  have hX : Measurable fun p : ℝ × ℝ => igX μ l p.1 := by unfold igX; fun_prop
  unfold igOut
  refine Measurable.ite (measurableSet_lt measurable_snd ?_) hX ?_
  · exact Measurable.div measurable_const (measurable_const.add hX)
  · exact Measurable.div measurable_const hX

theorem ig_section (hm : 0 < μ) (hl : 0 < l) (ν : ℝ) {A : Set ℝ} (hA : MeasurableSet A) :
    (volume.restrict (Ico (0:ℝ) 1)) {z | igOut μ l ν z ∈ A} =
      ENNReal.ofReal (μ / (μ + igX μ l ν)) * A.indicator 1 (igX μ l ν) +
      ENNReal.ofReal (igX μ l ν / (μ + igX μ l ν)) * A.indicator 1 (μ * μ / igX μ l ν) := by
  have hx := igX_pos hm hl ν
  unfold igOut
  generalize igX μ l ν = x at *
  have hp0 : 0 < μ / (μ + x) := by positivity
  have hp1 : μ / (μ + x) < 1 := by rw [div_lt_one (by positivity)]; linarith
  have e1 : x / (μ + x) = 1 - μ / (μ + x) := by field_simp; ring
  rw [e1]
  generalize μ / (μ + x) = p at *
  have m1 : (volume.restrict (Ico (0:ℝ) 1)) (Iio p) = ENNReal.ofReal p := by
    rw [Measure.restrict_apply measurableSet_Iio, show Iio p ∩ Ico 0 1 = Ico 0 p by
      ext z; simp only [mem_inter_iff, mem_Iio, mem_Ico]; constructor
      · rintro ⟨a, b, c⟩; exact ⟨b, a⟩
      · rintro ⟨a, b⟩; exact ⟨b, a, by linarith⟩]
    simp
  have m2 : (volume.restrict (Ico (0:ℝ) 1)) (Ici p) = ENNReal.ofReal (1 - p) := by
    rw [Measure.restrict_apply measurableSet_Ici, show Ici p ∩ Ico 0 1 = Ico p 1 by
      ext z; simp only [mem_inter_iff, mem_Ici, mem_Ico]; constructor
      · rintro ⟨a, b, c⟩; exact ⟨a, c⟩
      · rintro ⟨a, b⟩; exact ⟨a, by linarith, b⟩]
    simp
  have hs : {z | (if z < p then x else μ * μ / x) ∈ A} = {z | z ∈ Iio p ∧ x ∈ A} ∪ {z | z ∈ Ici p ∧ μ * μ / x ∈ A} := by
    ext z
    simp only [mem_setOf_eq, mem_union, mem_Iio, mem_Ici]
    by_cases h : z < p
    · simp [h]
    · simp [h, not_lt.1 h]
  have hd : Disjoint {z | z ∈ Iio p ∧ x ∈ A} {z | z ∈ Ici p ∧ μ * μ / x ∈ A} := by
    rw [Set.disjoint_left]; rintro z ⟨h1, _⟩ ⟨h2, _⟩
    exact absurd (mem_Iio.1 h1) (not_lt.2 h2)
  rw [hs, measure_union hd (measurableSet_Ici.inter (MeasurableSet.const _))]
  congr 1
  · by_cases h : x ∈ A
    · simp only [h, and_true, setOf_mem_eq, m1, indicator_of_mem, Pi.one_apply, mul_one]
    · simp [h]
  · by_cases h : μ * μ / x ∈ A
    · simp only [h, and_true, setOf_mem_eq, m2, indicator_of_mem, Pi.one_apply, mul_one]
    · simp [h]

theorem ig_Q (hm : 0 < μ) (hl : 0 < l) {y : ℝ} (hy : 0 < y) (ι : ℝ → ENNReal) :
    ENNReal.ofReal (μ / (μ + igX μ l (igA μ l y))) * ι (igX μ l (igA μ l y)) +
      ENNReal.ofReal (igX μ l (igA μ l y) / (μ + igX μ l (igA μ l y))) * ι (μ * μ / igX μ l (igA μ l y)) =
    ENNReal.ofReal (μ / (μ + y)) * ι y + ENNReal.ofReal (y / (μ + y)) * ι (μ * μ / y) := by
  rw [igX_A hm hl hy]
  by_cases h : y ≤ μ
  · rw [if_pos h]
  · rw [if_neg h, add_comm]
    have h1 : μ ^ 2 / y / (μ + μ ^ 2 / y) = μ / (μ + y) := by field_simp; ring
    have h2 : μ / (μ + μ ^ 2 / y) = y / (μ + y) := by field_simp; ring
    have h3 : μ * μ / (μ ^ 2 / y) = y := by field_simp
    rw [h1, h2, h3, sq]

theorem igA_weight (hm : 0 < μ) (hl : 0 < l) {y : ℝ} (hy : 0 < y) :
    |√l * ((y + μ) / (2 * μ * y * √y))| * gaussianPDFReal 0 1 (igA μ l y) = (y + μ) / (2 * μ) * invNormalPDF μ l y := by
  have hs : 0 < √l := Real.sqrt_pos.2 hl
  have hq := Real.sqrt_pos.2 hy
  rw [abs_of_pos (by positivity)]
  unfold invNormalPDF gaussianPDFReal
  rw [if_neg (not_le.2 hy), ig_pdf_eq hm hl hy]
  unfold igK
  simp only [NNReal.coe_one, mul_one, sub_zero]
  field_simp

/-- the scheme "smaller root with probability `μ/(μ+x)`, else the larger one" has exactly the inverse Gaussian law -/
theorem invNormal_sample_law (hm : 0 < μ) (hl : 0 < l) :
    ((gaussianReal 0 1).prod (volume.restrict (Ico (0:ℝ) 1))).map (fun p => igOut μ l p.1 p.2) = Law (invNormalPDF μ l) := by
  obtain ⟨him, hinj⟩ := igA_image hm hl
  have hfm : Measurable (invNormalPDF μ l) := by
    unfold invNormalPDF
    exact Measurable.ite measurableSet_Iic measurable_const (by fun_prop)
  ext A hA
  have hι : Measurable (A.indicator (1 : ℝ → ENNReal)) := measurable_one.indicator hA
  rw [Measure.map_apply igOut_measurable hA, Measure.prod_apply (igOut_measurable hA)]
  have e1 : ∀ ν, (volume.restrict (Ico (0:ℝ) 1)) (Prod.mk ν ⁻¹' ((fun p : ℝ × ℝ => igOut μ l p.1 p.2) ⁻¹' A)) =
      ENNReal.ofReal (μ / (μ + igX μ l ν)) * A.indicator 1 (igX μ l ν) +
      ENNReal.ofReal (igX μ l ν / (μ + igX μ l ν)) * A.indicator 1 (μ * μ / igX μ l ν) :=
    fun ν => ig_section hm hl ν hA
  simp only [e1]
  rw [gaussianReal_of_var_ne_zero 0 one_ne_zero, lintegral_withDensity_eq_lintegral_mul₀ (measurable_gaussianPDF 0 1).aemeasurable ?_]
  swap
  · have hX : Measurable fun ν : ℝ => igX μ l ν := by unfold igX; fun_prop
    refine Measurable.aemeasurable ?_
    refine Measurable.add (Measurable.mul ?_ (hι.comp hX)) (Measurable.mul ?_ (hι.comp ?_))
    · exact (Measurable.div measurable_const (measurable_const.add hX)).ennreal_ofReal
    · exact (Measurable.div hX (measurable_const.add hX)).ennreal_ofReal
    · exact Measurable.div measurable_const hX
  rw [← setLIntegral_univ, ← him, lintegral_image_eq_lintegral_abs_deriv_mul measurableSet_Ioi
    (fun x hx => (igA_deriv (l := l) hm hx).hasDerivWithinAt) hinj]
  have e2 : ∀ y ∈ Ioi (0:ℝ), ENNReal.ofReal |√l * ((y + μ) / (2 * μ * y * √y))| *
      (gaussianPDF 0 1 * fun ν => ENNReal.ofReal (μ / (μ + igX μ l ν)) * A.indicator 1 (igX μ l ν) +
      ENNReal.ofReal (igX μ l ν / (μ + igX μ l ν)) * A.indicator 1 (μ * μ / igX μ l ν)) (igA μ l y) =
      ENNReal.ofReal (1 / 2) * (ENNReal.ofReal (invNormalPDF μ l y) * A.indicator 1 y) +
      ENNReal.ofReal (1 / 2) * (ENNReal.ofReal |-(μ * μ) / y ^ 2| * (ENNReal.ofReal (invNormalPDF μ l (μ * μ / y)) * A.indicator 1 (μ * μ / y))) := by
    intro y hy
    have hy : 0 < y := hy
    have hf := ig_pdf_pos (μ := μ) hl hy
    rw [Pi.mul_apply, ig_Q hm hl hy (A.indicator 1), ← mul_assoc, gaussianPDF, ← ENNReal.ofReal_mul (abs_nonneg _), igA_weight hm hl hy,
      mul_add, ← mul_assoc, ← mul_assoc, ← mul_assoc, ← mul_assoc, ← mul_assoc]
    rw [← ENNReal.ofReal_mul (by positivity), ← ENNReal.ofReal_mul (by positivity), ← ENNReal.ofReal_mul (by positivity),
      ← ENNReal.ofReal_mul (by positivity), ← ENNReal.ofReal_mul (by positivity)]
    congr 3
    · field_simp; ring
    · have hy2 : 0 < μ * μ / y := by positivity
      rw [neg_div, abs_neg, abs_of_pos (by positivity)]
      have ef : invNormalPDF μ l (μ * μ / y) = y ^ 3 / μ ^ 3 * invNormalPDF μ l y := by
        have hp := pi_pos
        unfold invNormalPDF
        rw [if_neg (not_le.2 hy2), if_neg (not_le.2 hy)]
        rw [show -l * (μ * μ / y - μ) ^ 2 / (2 * μ ^ 2 * (μ * μ / y)) = -l * (y - μ) ^ 2 / (2 * μ ^ 2 * y) by field_simp; ring,
          show l / (2 * π * (μ * μ / y) ^ 3) = (y ^ 3 / μ ^ 3) ^ 2 * (l / (2 * π * y ^ 3)) by field_simp,
          Real.sqrt_mul (by positivity), Real.sqrt_sq (by positivity)]
        ring
      rw [ef]; field_simp; ring
  rw [setLIntegral_congr_fun measurableSet_Ioi e2]
  have hrec : ∀ x ∈ Ioi (0:ℝ), HasDerivWithinAt (fun y => μ * μ / y) (-(μ * μ) / x ^ 2) (Ioi 0) x := fun x hx => by
    have hx : x ≠ 0 := (ne_of_gt hx)
    have := ((hasDerivAt_id x).inv hx).const_mul (μ * μ)
    refine HasDerivWithinAt.congr_deriv (f := fun y => μ * μ / y) this.hasDerivWithinAt ?_
    simp only [id]; field_simp
  have himg : (fun y => μ * μ / y) '' Ioi (0:ℝ) = Ioi 0 := by
    ext x; simp only [mem_image, mem_Ioi]
    constructor
    · rintro ⟨y, hy, rfl⟩; positivity
    · intro hx; exact ⟨μ * μ / x, by positivity, by field_simp⟩
  have hinj2 : InjOn (fun y => μ * μ / y) (Ioi (0:ℝ)) := fun x hx y hy h => by
    have hx : 0 < x := hx
    have hy : 0 < y := hy
    simp only at h
    field_simp at h; exact h.symm
  have hmeas : Measurable fun y => ENNReal.ofReal (invNormalPDF μ l y) * A.indicator 1 y := hfm.ennreal_ofReal.mul hι
  rw [lintegral_add_left (hmeas.const_mul _), lintegral_const_mul _ hmeas, lintegral_const_mul' _ _ ENNReal.ofReal_ne_top,
    ← lintegral_image_eq_lintegral_abs_deriv_mul measurableSet_Ioi hrec hinj2 (fun y => ENNReal.ofReal (invNormalPDF μ l y) * A.indicator 1 y),
    himg, ← add_mul, ← ENNReal.ofReal_add (by norm_num) (by norm_num)]
  norm_num
  unfold Law
  rw [withDensity_apply _ hA, ← lintegral_indicator hA, ← lintegral_indicator measurableSet_Ioi]
  refine lintegral_congr fun x => ?_
  by_cases hxA : x ∈ A <;> by_cases hx : x ∈ Ioi (0:ℝ)
  · simp [hxA, hx]
  · have : invNormalPDF μ l x = 0 := if_pos (not_lt.1 hx)
    simp [hxA, hx, this]
  · simp [hxA, hx]
  · simp [hxA, hx]
end
end Rstat.Spec
