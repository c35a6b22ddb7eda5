import Verif.Lemmas.Transfer
import Verif.Spec.Families
import Mathlib.MeasureTheory.Measure.Lebesgue.Integral

namespace Rstat.Spec
open MeasureTheory Filter Topology Set Real

/-- an integral over the line from its two halves -/
theorem two_sided {h : ℝ → ℝ} (hp : IntegrableOn h (Ioi 0)) (hn : IntegrableOn (fun x => h (-x)) (Ioi 0)) :
    Integrable h ∧ ∫ x, h x = (∫ x in Ioi 0, h x) + ∫ x in Ioi 0, h (-x) := by
  have hl : IntegrableOn h (Iic 0) := by
    have := (Measure.measurePreserving_neg (volume : Measure ℝ)).integrableOn_comp_preimage
      (Homeomorph.neg ℝ).measurableEmbedding (f := h) (s := Iio 0)
    rw [integrableOn_Iic_iff_integrableOn_Iio]
    rw [← this]
    simpa [Function.comp_def] using hn
  have hi : Integrable h := by
    rw [← integrableOn_univ, ← Iic_union_Ioi (a := (0:ℝ))]; exact hl.union hp
  refine ⟨hi, ?_⟩
  rw [← intervalIntegral.integral_Iic_add_Ioi hl hp, add_comm]
  congr 1
  have := integral_comp_neg_Ioi (0:ℝ) h
  rw [neg_zero] at this
  exact this.symm

theorem exp_nat_moment (k : ℕ) : IntegrableOn (fun t : ℝ => t ^ k * rexp (-t)) (Ioi 0) ∧
    ∫ t in Ioi 0, t ^ k * rexp (-t) = k.factorial := by
  have := exp_rpow (s := k) (by have : (0:ℝ) ≤ k := k.cast_nonneg; linarith)
  simp only [rpow_natCast] at this
  refine ⟨this.1, this.2.trans ?_⟩
  rw [add_comm, Real.Gamma_nat_eq_factorial]

theorem laplace_std_density : IsCDF (laplaceCDF 0 1) ∧ IsDensityOf (laplacePDF 0 1) (laplaceCDF 0 1) := by
  have e1 : ∀ x, x ≤ 0 → laplaceCDF 0 1 x = rexp x / 2 := fun x hx => by
    rw [laplaceCDF, if_pos hx]; simp
  have e2 : ∀ x, 0 ≤ x → laplaceCDF 0 1 x = 1 - rexp (-x) / 2 := fun x hx => by
    rcases hx.eq_or_lt with h | h
    · rw [← h, e1 0 le_rfl]; norm_num
    · rw [laplaceCDF, if_neg (not_le.2 h)]; simp
  have hd1 : ∀ x : ℝ, HasDerivAt (fun x => rexp x / 2) (rexp x / 2) x := fun x => (Real.hasDerivAt_exp x).div_const 2
  have hd2 : ∀ x : ℝ, HasDerivAt (fun x => 1 - rexp (-x) / 2) (rexp (-x) / 2) x := fun x => by
    have := (((hasDerivAt_neg x).exp).div_const 2).const_sub 1
    refine HasDerivAt.congr_deriv this ?_; ring
  refine line_density (fun x => ?_) (fun x => by unfold laplacePDF; positivity) ?_ ?_
  · have hp : ∀ x, laplacePDF 0 1 x = rexp (-|x|) / 2 := fun x => by unfold laplacePDF; simp
    rw [hp]
    rcases lt_trichotomy x 0 with h | h | h
    · rw [abs_of_neg h, neg_neg]
      refine (hd1 x).congr_of_eventuallyEq ?_
      filter_upwards [Iio_mem_nhds h] with t ht using e1 t (mem_Iio.1 ht).le
    · subst h
      rw [abs_zero, neg_zero]
      have l : HasDerivWithinAt (laplaceCDF 0 1) (rexp 0 / 2) (Iic 0) 0 :=
        (hd1 0).hasDerivWithinAt.congr (fun x hx => e1 x hx) (e1 0 le_rfl)
      have r : HasDerivWithinAt (laplaceCDF 0 1) (rexp 0 / 2) (Ici 0) 0 := by
        have := (hd2 0).hasDerivWithinAt (s := Ici 0)
        rw [neg_zero] at this
        exact this.congr (fun x hx => e2 x hx) (e2 0 le_rfl)
      have := l.union r
      rwa [Iic_union_Ici, hasDerivWithinAt_univ] at this
    · rw [abs_of_pos h]
      refine (hd2 x).congr_of_eventuallyEq ?_
      filter_upwards [Ioi_mem_nhds h] with t ht using e2 t (mem_Ioi.1 ht).le
  · have : Tendsto (fun x => rexp x / 2) atBot (𝓝 (0 / 2)) := Real.tendsto_exp_atBot.div_const 2
    rw [zero_div] at this
    refine this.congr' ?_
    filter_upwards [eventually_le_atBot 0] with x hx using (e1 x hx).symm
  · have : Tendsto (fun x => 1 - rexp (-x) / 2) atTop (𝓝 (1 - 0 / 2)) :=
      ((Real.tendsto_exp_neg_atTop_nhds_zero).div_const 2).const_sub 1
    rw [zero_div, sub_zero] at this
    refine this.congr' ?_
    filter_upwards [eventually_ge_atTop 0] with x hx using (e2 x hx).symm

theorem laplace_std_raw (k : ℕ) : HasCentral (laplacePDF 0 1) 0 k ((1 + (-1) ^ k) * k.factorial / 2) := by
  unfold HasCentral
  simp only [sub_zero]
  obtain ⟨hi, hv⟩ := exp_nat_moment k
  have e1 : ∀ x ∈ Ioi (0:ℝ), x ^ k * rexp (-x) / 2 = x ^ k * laplacePDF 0 1 x := fun x hx => by
    rw [laplacePDF, sub_zero, abs_of_pos hx]; simp; ring
  have e2 : ∀ x ∈ Ioi (0:ℝ), (-1) ^ k / 2 * (x ^ k * rexp (-x)) = (-x) ^ k * laplacePDF 0 1 (-x) := fun x hx => by
    rw [laplacePDF, sub_zero, abs_neg, abs_of_pos hx, neg_pow]; simp; ring
  obtain ⟨h1, h2⟩ := two_sided (h := fun x => x ^ k * laplacePDF 0 1 x)
    (IntegrableOn.congr_fun (hi.div_const 2) e1 measurableSet_Ioi) (IntegrableOn.congr_fun (hi.const_mul _) e2 measurableSet_Ioi)
  refine ⟨h1, h2.trans ?_⟩
  rw [← setIntegral_congr_fun measurableSet_Ioi e1, ← setIntegral_congr_fun measurableSet_Ioi e2, integral_div,
    integral_const_mul, hv]; ring

theorem laplace_std_moments : HasMeanVar (laplacePDF 0 1) 0 2 ∧ HasSkew (laplacePDF 0 1) 0 ∧ HasKurt (laplacePDF 0 1) 6 := by
  have h1 : HasMean (laplacePDF 0 1) 0 := hasMean_iff_raw.2 ((laplace_std_raw 1).congr_val (by norm_num))
  have h2 : HasCentral (laplacePDF 0 1) 0 2 2 := (laplace_std_raw 2).congr_val (by norm_num [Nat.factorial])
  exact ⟨⟨h1, h2⟩, ⟨0, 2, by norm_num, ⟨h1, h2⟩, (laplace_std_raw 3).congr_val (by norm_num)⟩,
    ⟨0, 2, by norm_num, ⟨h1, h2⟩, (laplace_std_raw 4).congr_val (by norm_num [Nat.factorial])⟩⟩

theorem laplace_std_entropy : HasEntropy (laplacePDF 0 1) (1 + Real.log 2) := by
  obtain ⟨hi, hv⟩ := exp_nat_moment 1
  obtain ⟨hi0, hv0⟩ := exp_nat_moment 0
  simp only [pow_one, pow_zero, one_mul, Nat.factorial, Nat.cast_one, mul_one] at hi hv hi0 hv0
  have hp : ∀ x, laplacePDF 0 1 x = rexp (-|x|) / 2 := fun x => by unfold laplacePDF; simp
  have e : ∀ x, laplacePDF 0 1 x * Real.log (laplacePDF 0 1 x) = -(|x| * rexp (-|x|) / 2 + Real.log 2 / 2 * rexp (-|x|)) := fun x => by
    rw [hp, Real.log_div (Real.exp_ne_zero _) two_ne_zero, Real.log_exp]; ring
  have e1 : ∀ x ∈ Ioi (0:ℝ), -(x * rexp (-x) / 2 + Real.log 2 / 2 * rexp (-x)) =
      laplacePDF 0 1 x * Real.log (laplacePDF 0 1 x) := fun x hx => by
    rw [e, abs_of_pos hx]
  have e2 : ∀ x ∈ Ioi (0:ℝ), -(x * rexp (-x) / 2 + Real.log 2 / 2 * rexp (-x)) =
      laplacePDF 0 1 (-x) * Real.log (laplacePDF 0 1 (-x)) := fun x hx => by
    rw [e, abs_neg, abs_of_pos hx]
  have j : IntegrableOn (fun x => -(x * rexp (-x) / 2 + Real.log 2 / 2 * rexp (-x))) (Ioi 0) :=
    ((hi.div_const 2).add (hi0.const_mul _)).neg
  obtain ⟨h1, h2⟩ := two_sided (h := fun x => laplacePDF 0 1 x * Real.log (laplacePDF 0 1 x))
    (j.congr_fun e1 measurableSet_Ioi) (j.congr_fun e2 measurableSet_Ioi)
  refine ⟨h1, ?_⟩
  rw [h2, ← setIntegral_congr_fun measurableSet_Ioi e1, ← setIntegral_congr_fun measurableSet_Ioi e2, integral_neg,
    integral_add (hi.div_const 2) (hi0.const_mul _), integral_div, integral_const_mul, hv, hv0]; ring

theorem laplace_locScale (m : ℝ) {b : ℝ} (hb : 0 < b) : laplacePDF m b = locScale m b (laplacePDF 0 1) := by
  ext x; unfold locScale laplacePDF
  rw [sub_zero, div_one, abs_div, abs_of_pos hb, neg_div]; field_simp
theorem laplaceCDF_locScale (m : ℝ) {b : ℝ} (hb : 0 < b) (x : ℝ) : laplaceCDF m b x = laplaceCDF 0 1 ((x - m) / b) := by
  unfold laplaceCDF
  have : (x - m) / b ≤ 0 ↔ x ≤ m := by rw [div_le_iff₀ hb, zero_mul, sub_nonpos]
  rw [sub_zero, div_one, div_one]
  simp only [this, neg_div]

theorem laplace_density (m : ℝ) {b : ℝ} (hb : 0 < b) :
    IsCDF (laplaceCDF m b) ∧ IsDensityOf (laplacePDF m b) (laplaceCDF m b) := by
  rw [laplace_locScale m hb, show laplaceCDF m b = fun x => laplaceCDF 0 1 ((x - m) / b) from
    funext (laplaceCDF_locScale m hb)]
  exact ⟨locScale_isCDF hb laplace_std_density.1, locScale_density hb laplace_std_density.2⟩

theorem laplace_moments (m : ℝ) {b : ℝ} (hb : 0 < b) :
    HasMeanVar (laplacePDF m b) m (2 * b ^ 2) ∧ HasSkew (laplacePDF m b) 0 ∧ HasKurt (laplacePDF m b) 6 ∧
    HasEntropy (laplacePDF m b) (1 + Real.log 2 + Real.log b) := by
  have hd := laplace_std_density.2
  obtain ⟨h1, h2, h3⟩ := laplace_std_moments
  rw [laplace_locScale m hb]
  refine ⟨?_, locScale_skew hb hd h2, locScale_kurt hb hd h3, locScale_entropy hb hd laplace_std_entropy⟩
  have := locScale_meanVar (m := m) hb hd h1
  rwa [mul_zero, add_zero, mul_comm] at this

end Rstat.Spec
