import Verif.Model.Dist.Rayleigh
import Verif.Lemmas.Dist.Rayleigh
import Verif.Lemmas.DistBase
import Verif.Props.Dist.Weibull

/-! Properties C75, C109: the Rayleigh law. -/
set_option linter.unusedSectionVars false
namespace Rstat
open F64 Consts Spec MeasureTheory ProbabilityTheory Set

theorem Rayleigh.new_ok [FP] {a : F64} {d : Rayleigh} : Rayleigh.new a = .ok d ↔ 0 < a ∧ d = ⟨a⟩ := by
  simp only [Rayleigh.new, exc_bind_ok, Shape.new_ok]
  constructor
  · rintro ⟨_, ⟨h0, rfl⟩, h⟩; exact ⟨h0, by cases h; rfl⟩
  · rintro ⟨h0, rfl⟩; exact ⟨_, ⟨h0, rfl⟩, rfl⟩

section
variable [FP] [FP.Exact] {a : F64} {s : ℝ} {d : Rayleigh}

theorem rayleigh_cdf_is (hs : 0 < s) (ha : a.Is s) {x : F64} {t : ℝ} (hx : x.Is t) :
    (Rayleigh.cdf ⟨a⟩ x).val.Is (1 - Real.exp (-t ^ 2 / 2)) := by
  unfold Rayleigh.cdf Probability.newUnchecked
  refine Is.congr (r := 1 - Real.exp (-t * t / s * s / 2)) (by fev) ?_
  rw [div_mul_cancel₀ _ hs.ne']; congr 2; ring

theorem rayleigh_pdf_is (hs : 0 < s) (ha : a.Is s) {x : F64} {t : ℝ} (hx : x.Is t) :
    (Rayleigh.pdf ⟨a⟩ x).Is (t / s ^ 2 * Real.exp (-t ^ 2 / (2 * s ^ 2))) := by
  unfold Rayleigh.pdf; dsimp only
  refine Is.congr (r := t / (s * s) * Real.exp (-t * t / (s * s) / 2)) (by fev) ?_
  rw [sq s]; congr 2; rw [div_div]; ring

theorem rayleigh_excess_is : Rayleigh.EXCESS_KURTOSIS.Is (3 / 2 * Real.pi ^ 2 - 6 * Real.pi +
    16 / ((4 - Real.pi) / 2) / ((4 - Real.pi) / 2)) := by
  have := Real.pi_lt_four
  have h : Rayleigh.FOUR_MINUS_PI_OVER_2.Is ((4 - Real.pi) / 2) := by
    unfold Rayleigh.FOUR_MINUS_PI_OVER_2 Rayleigh.FOUR_MINUS_PI; fev
  have h' : (4 - Real.pi) / 2 ≠ 0 := by have : 0 < 4 - Real.pi := by linarith
                                        positivity
  unfold Rayleigh.EXCESS_KURTOSIS
  exact Is.add (by fev) (Is.div (Is.div (by fev) h h') h h')

/-- C75 (violated): `cdf` ignores `sigma` (it divides and multiplies by it), so it is the Rayleigh distribution function
for no scale but 1; and `kurtosis`/`excess_kurtosis` return constants above 80 while the true kurtosis is below 4. -/
theorem C75_rayleigh_cdf_kurtosis_violated (h : Rayleigh.new a = .ok d) (ha : a.Is s) :
    Computes (fun x => (d.cdf x).val) (rayleighCDF 1) (Ici 0) ∧
    (Computes (fun x => (d.cdf x).val) (rayleighCDF s) (Ici 0) ↔ s = 1) ∧
    (∃ κ k e, HasKurt (rayleighPDF s) κ ∧ κ < 4 ∧ d.kurtosis.Is k ∧ 80 < k ∧ d.excessKurtosis.Is e ∧ 80 < e) := by
  obtain ⟨h0, rfl⟩ := Rayleigh.new_ok.1 h
  have hs : 0 < s := pos_of_lt h0 ha
  have h1 : Computes (fun x => (Rayleigh.cdf ⟨a⟩ x).val) (rayleighCDF 1) (Ici 0) := fun x t ht hx => by
    refine (rayleigh_cdf_is hs ha hx).congr ?_
    have ht : 0 ≤ t := ht
    unfold rayleighCDF
    rcases ht.eq_or_lt with rfl | ht
    · simp
    · rw [if_neg (not_le.2 ht)]; norm_num
  refine ⟨h1, ⟨fun h2 => ?_, fun e => e ▸ h1⟩, _, _, _, (rayleigh_moments hs).2.2, ?_, rayleigh_excess_is.add (Is.num 3), ?_,
    rayleigh_excess_is, ?_⟩
  · have e := (h1 (fin 1) 1 (by simp) (Is.fin 1)).eq (h2 (fin 1) 1 (by simp) (Is.fin 1))
    unfold rayleighCDF at e
    rw [if_neg (by norm_num), if_neg (by norm_num)] at e
    have e := Real.exp_injective (sub_right_injective e)
    field_simp at e
    nlinarith
  · have p1 := Real.pi_gt_d2
    have p2 := Real.pi_lt_d2
    rw [div_lt_iff₀ (by nlinarith)]
    nlinarith
  all_goals
    have p1 := Real.pi_gt_d2
    have p2 := Real.pi_lt_d2
    have hq : (85:ℝ) < 16 / ((4 - Real.pi) / 2) / ((4 - Real.pi) / 2) := by
      rw [div_div, lt_div_iff₀ (by nlinarith)]
      nlinarith
    nlinarith

/-- C75 (what holds): `pdf` is the Rayleigh density on `x ≥ 0`; mean, variance, skewness, entropy and mode are its; `median`
is the median of the Rayleigh law (not of the method `cdf`, unless `sigma = 1`). -/
theorem C75_rayleigh_partial (h : Rayleigh.new a = .ok d) (ha : a.Is s) :
    0 < s ∧ Computes d.pdf (rayleighPDF s) (Ici 0) ∧
    IsCDF (rayleighCDF s) ∧ IsDensityOf (rayleighPDF s) (rayleighCDF s) ∧
    (∃ μ v, d.mean.Is μ ∧ d.variance.Is v ∧ HasMeanVar (rayleighPDF s) μ v) ∧
    (∃ κ, d.skewness.Is κ ∧ HasSkew (rayleighPDF s) κ) ∧
    (∃ x, d.median.Is x ∧ rayleighCDF s x = 1 / 2) ∧
    (∃ y x, d.modes = [y] ∧ y.Is x ∧ IsMode (rayleighPDF s) x) ∧
    (∃ e, d.shannonEntropy.Is e ∧ HasEntropy (rayleighPDF s) e) := by
  obtain ⟨h0, rfl⟩ := Rayleigh.new_ok.1 h
  have hs : 0 < s := pos_of_lt h0 ha
  obtain ⟨hF, hD⟩ := rayleigh_density hs
  obtain ⟨m2, m3, -⟩ := rayleigh_moments hs
  have p1 := Real.pi_gt_three
  have p2 := Real.pi_lt_four
  have hlog2 : 0 < Real.log 2 := Real.log_pos one_lt_two
  refine ⟨hs, fun x t ht hx => ?_, hF, hD, ⟨_, _, ?_, ?_, m2⟩, ⟨_, ?_, m3⟩, ⟨s * Real.sqrt (2 * Real.log 2), ?_, ?_⟩,
    ⟨_, _, rfl, ha, fun x => ?_⟩, ⟨_, ?_, rayleigh_entropy hs⟩⟩
  · refine (rayleigh_pdf_is hs ha hx).congr ?_
    have ht : 0 ≤ t := ht
    unfold rayleighPDF
    rcases ht.eq_or_lt with rfl | ht
    · simp
    · rw [if_neg (not_le.2 ht)]
  · unfold Rayleigh.mean; fev
  · unfold Rayleigh.variance Rayleigh.FOUR_MINUS_PI_OVER_2 Rayleigh.FOUR_MINUS_PI
    exact Is.congr (r := (4 - Real.pi) / 2 * s * s) (by fev) (by ring)
  · unfold Rayleigh.skewness Rayleigh.FOUR_MINUS_PI Rayleigh.TWO_PI_MINUS_3
    have hv : 0 < 4 - Real.pi := by linarith
    have hp := Is.powf (show (4 - PI : F64).Is (4 - Real.pi) by fev) THREE_HALVES_is hv
    rw [rpow_three_halves hv] at hp
    exact Is.div (by fev) hp (pow_ne_zero _ (Real.sqrt_pos.2 hv).ne')
  · unfold Rayleigh.median; fev
  · have hp : 0 < s * Real.sqrt (2 * Real.log 2) := by positivity
    rw [rayleighCDF, if_neg (not_le.2 hp), mul_pow, Real.sq_sqrt (by positivity),
      show -(s ^ 2 * (2 * Real.log 2)) / (2 * s ^ 2) = -Real.log 2 by field_simp, Real.exp_neg, Real.exp_log two_pos]
    norm_num
  · -- `y e^{-y²/2} ≤ e^{-1/2}` for `y = x/s`
    have e : ∀ y, 0 < y → rayleighPDF s y = Real.exp (Real.log (y / s) - (y / s) ^ 2 / 2) / s := by
      intro y hy
      rw [rayleighPDF, if_neg (not_le.2 hy), Real.exp_sub, Real.exp_log (by positivity), neg_div, Real.exp_neg, div_pow]
      rw [show y ^ 2 / (2 * s ^ 2) = y ^ 2 / s ^ 2 / 2 by field_simp]
      field_simp
    rcases le_or_gt x 0 with hx | hx
    · rw [rayleighPDF, if_pos hx]; exact hD.nonneg _
    · rw [e x hx, e s hs, div_self hs.ne']
      refine div_le_div_of_nonneg_right (Real.exp_le_exp.2 ?_) hs.le
      have hy : 0 < x / s := div_pos hx hs
      have := Real.log_le_sub_one_of_pos (pow_pos hy 2)
      rw [Real.log_pow] at this
      push_cast at this
      rw [Real.log_one]
      linarith
  · unfold Rayleigh.shannonEntropy; dsimp only
    exact Is.congr (r := 1 + Real.log (s / Real.sqrt 2) + -Spec.digamma 1 / 2) (by fev) (by ring)

/-- C109 (violated): below the support `cdf` is strictly positive and `pdf` strictly negative, at every `x < 0`. -/
theorem C109_rayleigh_below_support_violated (h : Rayleigh.new a = .ok d) (ha : a.Is s) {x : F64} {t : ℝ} (hx : x.Is t)
    (ht : t < 0) : rayleighCDF s t = 0 ∧ rayleighPDF s t = 0 ∧ (∃ r, (d.cdf x).val.Is r ∧ 0 < r) ∧
      (∃ r, (d.pdf x).Is r ∧ r < 0) := by
  obtain ⟨h0, rfl⟩ := Rayleigh.new_ok.1 h
  have hs : 0 < s := pos_of_lt h0 ha
  have h2 : 0 < t ^ 2 := sq_pos_of_neg ht
  refine ⟨by rw [rayleighCDF, if_pos ht.le], by rw [rayleighPDF, if_pos ht.le], ⟨_, rayleigh_cdf_is hs ha hx, ?_⟩,
    ⟨_, rayleigh_pdf_is hs ha hx, ?_⟩⟩
  · exact sub_pos.2 (Real.exp_lt_one_iff.2 (by linarith))
  · exact mul_neg_of_neg_of_pos (div_neg_of_neg_of_pos ht (by positivity)) (Real.exp_pos _)

end

section
attribute [local instance] exactFP exactFP_exact
example : ∃ d, Rayleigh.new (fin 2) = .ok d ∧ ¬ Computes (fun x => (d.cdf x).val) (rayleighCDF 2) (Ici 0) := by
  have h : Rayleigh.new (fin 2) = .ok ⟨fin 2⟩ := Rayleigh.new_ok.2 ⟨fin_lt_fin.2 (by norm_num), rfl⟩
  refine ⟨_, h, fun hc => ?_⟩
  have := (C75_rayleigh_cdf_kurtosis_violated h (Is.fin 2)).2.1.1 hc
  norm_num at this
end
end Rstat
