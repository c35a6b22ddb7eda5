import Verif.Lemmas.Dist.PowerExp

namespace Rstat.Spec
open MeasureTheory Filter Topology Set Real

theorem frechet_pow {a : ℝ} (ha : 0 < a) : frechetPDF a = powPDF (-a) := by
  ext x; unfold frechetPDF powPDF; rw [abs_neg, abs_of_pos ha]; simp only [show -a - 1 = -1 - a by ring]

theorem frechet_density {a : ℝ} (ha : 0 < a) : IsCDF (frechetCDF a) ∧ IsDensityOf (frechetPDF a) (frechetCDF a) := by
  rw [frechet_pow ha]; exact pow_density_neg ha

theorem frechet_raw {a : ℝ} (ha : 0 < a) {n : ℕ} (h : (n : ℝ) < a) :
    HasCentral (frechetPDF a) 0 n (Real.Gamma (1 - n / a)) := by
  have e : (1:ℝ) + n / (-a) = 1 - n / a := by rw [div_neg]; ring
  have hp : 0 < (1:ℝ) - n / a := by rw [sub_pos, div_lt_one ha]; exact h
  have h := pow_raw (p := -a) (by linarith) (k := n) (by rw [e]; exact hp)
  rwa [e, ← frechet_pow ha] at h

theorem frechet_raw_infinite {a : ℝ} (ha : 0 < a) {n : ℕ} (h : a ≤ n) : ¬ Integrable fun x => x ^ n * frechetPDF a x := by
  have e : (1:ℝ) + n / (-a) = 1 - n / a := by rw [div_neg]; ring
  rw [frechet_pow ha]
  refine pow_raw_infinite (by linarith) ?_
  rw [e, sub_nonpos, le_div_iff₀ ha]; linarith

/-- no finite central moment of order `n ≥ α` -/
theorem frechet_central_infinite {a : ℝ} (ha : 0 < a) {n : ℕ} (h : a ≤ n) (m v : ℝ) : ¬ HasCentral (frechetPDF a) m n v :=
  fun hc => frechet_raw_infinite ha h
    (raw_integrable_of_central (frechet_density ha).2.nonneg (frechet_density ha).2.integrable hc.1)

theorem frechet_entropy {a : ℝ} (ha : 0 < a) :
    HasEntropy (frechetPDF a) (1 - Real.log a - (1 + 1 / a) * digamma 1) := by
  have h := pow_entropy (p := -a) (by linarith)
  rw [abs_neg, abs_of_pos ha, ← frechet_pow ha] at h
  rwa [show 1 - 1 / -a = 1 + 1 / a by rw [div_neg]; ring] at h

theorem frechet_mode {a : ℝ} (ha : 0 < a) : IsMode (frechetPDF a) ((a / (1 + a)) ^ (1 / a)) := by
  have key : ∀ x, 0 < x → frechetPDF a x = a * rexp ((1 + 1 / a) * Real.log (x ^ (-a)) - x ^ (-a)) := by
    intro x hx
    rw [frechetPDF, if_neg (not_le.2 hx), Real.exp_sub, Real.exp_neg, Real.log_rpow hx,
      show (1 + 1 / a) * (-a * Real.log x) = Real.log x * (-1 - a) by field_simp; ring, ← rpow_def_of_pos hx]
    ring
  have h0 : 0 < a / (1 + a) := by positivity
  have hm : 0 < (a / (1 + a)) ^ (1 / a) := rpow_pos_of_pos h0 _
  intro x
  rcases le_or_gt x 0 with hx | hx
  · rw [frechetPDF, if_pos hx]; exact (frechet_density ha).2.nonneg _
  · rw [key x hx, key _ hm]
    have hw : ((a / (1 + a)) ^ (1 / a)) ^ (-a) = 1 + 1 / a := by
      rw [← rpow_mul h0.le, show 1 / a * -a = -1 by field_simp, rpow_neg_one]; field_simp; ring
    rw [hw]
    have hc : 0 < 1 + 1 / a := by positivity
    have hwx : 0 < x ^ (-a) := rpow_pos_of_pos hx _
    have hl := Real.log_le_sub_one_of_pos (div_pos hwx hc)
    rw [Real.log_div hwx.ne' hc.ne'] at hl
    have : (1 + 1 / a) * (Real.log (x ^ (-a)) - Real.log (1 + 1 / a)) ≤ x ^ (-a) - (1 + 1 / a) := by
      have := mul_le_mul_of_nonneg_left hl hc.le
      rwa [mul_sub, mul_sub, mul_div_cancel₀ _ hc.ne', ← mul_sub, mul_one] at this
    rw [mul_sub] at this
    exact mul_le_mul_of_nonneg_left (Real.exp_le_exp.2 (by linarith)) ha.le

end Rstat.Spec
