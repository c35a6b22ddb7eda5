import Verif.Lemmas.Polygamma
import Verif.Spec.Families

namespace Rstat.Spec
open MeasureTheory Filter Topology Set Real

theorem gumbel_locScale (m : ℝ) {b : ℝ} (_hb : 0 < b) : gumbelPDF m b = locScale m b (gumbelPDF 0 1) := by
  ext x; unfold locScale gumbelPDF; simp only [neg_div, sub_zero, div_one]
theorem gumbelCDF_locScale (m : ℝ) {b : ℝ} (_hb : 0 < b) (x : ℝ) : gumbelCDF m b x = gumbelCDF 0 1 ((x - m) / b) := by
  unfold gumbelCDF; simp only [neg_div, sub_zero, div_one]

theorem gumbel_std_density : IsCDF (gumbelCDF 0 1) ∧ IsDensityOf (gumbelPDF 0 1) (gumbelCDF 0 1) := by
  have e1 : gumbelCDF 0 1 = fun x => rexp (-rexp (-x)) := by ext x; simp [gumbelCDF]
  have e2 : gumbelPDF 0 1 = fun x => rexp (-x) * rexp (-rexp (-x)) := by ext x; simp [gumbelPDF]
  rw [e1, e2]
  refine line_density (fun x => ?_) (fun x => by positivity) ?_ ?_
  · have := ((hasDerivAt_neg x).exp.neg).exp
    refine HasDerivAt.congr_deriv (f := fun x => rexp (-rexp (-x))) this ?_
    show rexp (-rexp (-x)) * _ = _
    ring
  · exact Real.tendsto_exp_atBot.comp (tendsto_neg_atTop_atBot.comp (Real.tendsto_exp_atTop.comp tendsto_neg_atBot_atTop))
  · have : Tendsto (fun x : ℝ => -rexp (-x)) atTop (𝓝 (-0)) := Real.tendsto_exp_neg_atTop_nhds_zero.neg
    rw [neg_zero] at this
    have h := (Real.continuous_exp.tendsto 0).comp this
    rwa [Real.exp_zero] at h

theorem gumbel_transfer (h : ℝ → ℝ) :
    (Integrable (fun x => h x * gumbelPDF 0 1 x) ↔ IntegrableOn (fun t => h (-Real.log t) * rexp (-t)) (Ioi 0)) ∧
    ∫ x, h x * gumbelPDF 0 1 x = ∫ t in Ioi 0, h (-Real.log t) * rexp (-t) := by
  refine transfer (T := Ioi 0) (φ := fun t => -Real.log t) (φ' := fun t => -t⁻¹) measurableSet_Ioi
    (fun t ht => (Real.hasDerivAt_log (ne_of_gt ht)).neg) (fun x hx y hy hxy => ?_) (fun t ht => ?_) (Eventually.of_forall fun x hx => ?_) h
  · exact Real.log_injOn_pos hx hy (neg_injective hxy)
  · have ht : 0 < t := ht
    rw [abs_neg, abs_of_pos (inv_pos.2 ht), gumbelPDF]
    simp only [sub_zero, neg_neg, div_one, Real.exp_log ht]
    field_simp
  · exact absurd ⟨rexp (-x), Real.exp_pos _, by simp⟩ hx

theorem gumbel_std_raw (k : ℕ) : HasCentral (gumbelPDF 0 1) 0 k ((-1) ^ k * iteratedDeriv k Real.Gamma 1) := by
  have h := log_gamma_moment one_pos k
  simp only [sub_self, rpow_zero, one_mul] at h
  unfold HasCentral
  simp only [sub_zero]
  obtain ⟨t1, t2⟩ := gumbel_transfer (fun x => x ^ k)
  have e : ∀ t ∈ Ioi (0:ℝ), (-1) ^ k * (Real.log t ^ k * rexp (-t)) = (-Real.log t) ^ k * rexp (-t) := fun t _ => by
    rw [neg_pow (Real.log t)]; ring
  refine ⟨t1.2 (IntegrableOn.congr_fun (h.1.const_mul _) e measurableSet_Ioi), ?_⟩
  rw [t2, ← setIntegral_congr_fun measurableSet_Ioi e, integral_const_mul, h.2]

theorem gumbel_std_moments : HasMeanVar (gumbelPDF 0 1) (-digamma 1) (π ^ 2 / 6) ∧ HasKurt (gumbelPDF 0 1) (27 / 5) := by
  obtain ⟨_, hd⟩ := gumbel_std_density
  have g1 : iteratedDeriv 1 Real.Gamma 1 = digamma 1 := by
    rw [iteratedDeriv_one, (gamma_hasDerivAt one_pos).deriv, Real.Gamma_one, one_mul]
  have h1 : HasMean (gumbelPDF 0 1) (-digamma 1) := hasMean_iff_raw.2 ((gumbel_std_raw 1).congr_val (by rw [g1]; ring))
  have h2 := (gumbel_std_raw 2)
  have h3 := (gumbel_std_raw 3)
  have h4 := (gumbel_std_raw 4)
  obtain ⟨v2, v4⟩ := gamma_derivs_one
  have hmv : HasMeanVar (gumbelPDF 0 1) (-digamma 1) (π ^ 2 / 6) :=
    ⟨h1, (central2 hd.integrable hd.total h1 h2).congr_val (by rw [← v2]; ring)⟩
  refine ⟨hmv, -digamma 1, π ^ 2 / 6, by positivity, hmv, (central4 hd.integrable hd.total h1 h2 h3 h4).congr_val ?_⟩
  have : 27 / 5 * (π ^ 2 / 6) ^ 2 = 3 * π ^ 4 / 20 := by ring
  rw [this, ← v4]; ring

theorem gumbel_std_skew : HasSkew (gumbelPDF 0 1) (12 * √6 * zeta 3 / π ^ 3) := by
  obtain ⟨_, hd⟩ := gumbel_std_density
  obtain ⟨hmv, -⟩ := gumbel_std_moments
  refine ⟨-digamma 1, π ^ 2 / 6, by positivity, hmv,
    (central3 hd.integrable hd.total hmv.1 (gumbel_std_raw 2) (gumbel_std_raw 3)).congr_val ?_⟩
  have hz : zeta 3 = ∑' n : ℕ, 1 / ((n : ℝ) + 1) ^ 3 := tsum_congr fun n => by
    rw [show (3:ℝ) = ((3:ℕ):ℝ) by norm_num, Real.rpow_natCast]
  have h6 : √6 ^ 2 = (6:ℝ) := Real.sq_sqrt (by norm_num)
  have h0 : √(6:ℝ) ≠ 0 := by positivity
  rw [Real.sqrt_div (by positivity), Real.sqrt_sq pi_pos.le]
  have e : 12 * √6 * zeta 3 / π ^ 3 * (π / √6) ^ 3 = 12 * zeta 3 / √6 ^ 2 := by field_simp
  rw [e, h6]
  have := gamma_deriv3_one
  rw [← hz] at this
  linarith

theorem gumbel_skew (m : ℝ) {b : ℝ} (hb : 0 < b) : HasSkew (gumbelPDF m b) (12 * √6 * zeta 3 / π ^ 3) := by
  rw [gumbel_locScale m hb]
  exact locScale_skew hb gumbel_std_density.2 gumbel_std_skew

theorem gumbel_std_entropy : HasEntropy (gumbelPDF 0 1) (1 - digamma 1) := by
  have e : ∀ x, gumbelPDF 0 1 x * Real.log (gumbelPDF 0 1 x) = (-x - rexp (-x)) * gumbelPDF 0 1 x := fun x => by
    unfold gumbelPDF
    rw [div_one, div_one, sub_zero, Real.log_mul (Real.exp_ne_zero _) (Real.exp_ne_zero _), Real.log_exp, Real.log_exp]; ring
  obtain ⟨t1, t2⟩ := gumbel_transfer (fun x => -x - rexp (-x))
  have e2 : ∀ t ∈ Ioi (0:ℝ), Real.log t * rexp (-t) - t ^ (1:ℝ) * rexp (-t) = (- -Real.log t - rexp (- -Real.log t)) * rexp (-t) := by
    intro t ht
    rw [neg_neg, Real.exp_log ht, rpow_one]; ring
  obtain ⟨a1, a2⟩ := exp_log_mean
  obtain ⟨b1, b2⟩ := exp_rpow (s := 1) (by norm_num)
  have j : IntegrableOn (fun t => Real.log t * rexp (-t) - t ^ (1:ℝ) * rexp (-t)) (Ioi 0) := a1.sub b1
  unfold HasEntropy
  simp only [e]
  refine ⟨t1.2 (IntegrableOn.congr_fun j e2 measurableSet_Ioi), ?_⟩
  rw [t2, ← setIntegral_congr_fun measurableSet_Ioi e2, integral_sub a1 b1, a2, b2]
  rw [show (1:ℝ) + 1 = 2 by norm_num, Real.Gamma_two]; ring

theorem gumbel_density (m : ℝ) {b : ℝ} (hb : 0 < b) :
    IsCDF (gumbelCDF m b) ∧ IsDensityOf (gumbelPDF m b) (gumbelCDF m b) := by
  rw [gumbel_locScale m hb, show gumbelCDF m b = fun x => gumbelCDF 0 1 ((x - m) / b) from
    funext (gumbelCDF_locScale m hb)]
  exact ⟨locScale_isCDF hb gumbel_std_density.1, locScale_density hb gumbel_std_density.2⟩

theorem gumbel_moments (m : ℝ) {b : ℝ} (hb : 0 < b) :
    HasMeanVar (gumbelPDF m b) (m + b * -digamma 1) (b ^ 2 * (π ^ 2 / 6)) ∧ HasKurt (gumbelPDF m b) (27 / 5) ∧
    HasEntropy (gumbelPDF m b) (1 - digamma 1 + Real.log b) := by
  have hd := gumbel_std_density.2
  obtain ⟨h1, h3⟩ := gumbel_std_moments
  rw [gumbel_locScale m hb]
  exact ⟨locScale_meanVar hb hd h1, locScale_kurt hb hd h3, locScale_entropy hb hd gumbel_std_entropy⟩


theorem gumbel_hasDerivAt {m s : ℝ} (hs : 0 < s) (t : ℝ) : HasDerivAt (gumbelCDF m s) (gumbelPDF m s t) t := by
  have := (((((hasDerivAt_id t).sub_const m).neg.div_const s).exp).neg).exp
  refine HasDerivAt.congr_deriv (f := gumbelCDF m s) this ?_
  show rexp (-rexp (-(t - m) / s)) * -(rexp (-(t - m) / s) * (-1 / s)) = _
  unfold gumbelPDF; ring

end Rstat.Spec
