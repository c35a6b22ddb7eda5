import Verif.Lemmas.Dist.PowerExp

namespace Rstat.Spec
open MeasureTheory Filter Topology Set Real

theorem weibull_std (k : ℝ) (hk : 0 < k) : weibullPDF 1 k = powPDF k := by
  ext x; unfold weibullPDF powPDF; rw [abs_of_pos hk]; simp
theorem weibullCDF_std (k : ℝ) : weibullCDF 1 k = halfCDF 0 fun x => 1 - rexp (-x ^ k) := by
  ext x; unfold weibullCDF halfCDF; simp
theorem weibull_locScale {l k : ℝ} (hl : 0 < l) : weibullPDF l k = locScale 0 l (weibullPDF 1 k) := by
  ext x; unfold weibullPDF locScale
  have : (x - 0) / l ≤ 0 ↔ x ≤ 0 := by rw [sub_zero, div_le_iff₀ hl, zero_mul]
  simp only [this]
  split_ifs
  · simp
  · rw [sub_zero, div_one, div_one]; ring
theorem weibullCDF_locScale {l k : ℝ} (hl : 0 < l) (x : ℝ) : weibullCDF l k x = weibullCDF 1 k ((x - 0) / l) := by
  unfold weibullCDF
  have : x / l ≤ 0 ↔ x ≤ 0 := by rw [div_le_iff₀ hl, zero_mul]
  simp only [sub_zero, div_one, this]

theorem weibull_std_density {k : ℝ} (hk : 0 < k) : IsCDF (weibullCDF 1 k) ∧ IsDensityOf (weibullPDF 1 k) (weibullCDF 1 k) := by
  rw [weibull_std k hk, weibullCDF_std]; exact pow_density_pos hk

theorem weibull_density {l k : ℝ} (hl : 0 < l) (hk : 0 < k) :
    IsCDF (weibullCDF l k) ∧ IsDensityOf (weibullPDF l k) (weibullCDF l k) := by
  rw [weibull_locScale hl, show weibullCDF l k = fun x => weibullCDF 1 k ((x - 0) / l) from
    funext (weibullCDF_locScale hl)]
  exact ⟨locScale_isCDF hl (weibull_std_density hk).1, locScale_density hl (weibull_std_density hk).2⟩

/-- raw moments `λⁿ Γ(1 + n/k)` -/
theorem weibull_raw {l k : ℝ} (hl : 0 < l) (hk : 0 < k) (n : ℕ) :
    HasCentral (weibullPDF l k) 0 n (l ^ n * Real.Gamma (1 + n / k)) := by
  have h := pow_raw hk.ne' (k := n) (by positivity)
  rw [← weibull_std k hk] at h
  rw [weibull_locScale hl]
  have := locScale_central (m := 0) hl h
  rwa [mul_zero, add_zero] at this

theorem weibull_mean {l k : ℝ} (hl : 0 < l) (hk : 0 < k) : HasMean (weibullPDF l k) (l * Real.Gamma (1 + 1 / k)) :=
  hasMean_iff_raw.2 ((weibull_raw hl hk 1).congr_val (by simp))

theorem weibull_entropy {l k : ℝ} (hl : 0 < l) (hk : 0 < k) :
    HasEntropy (weibullPDF l k) (1 - Real.log k - (1 - 1 / k) * digamma 1 + Real.log l) := by
  have h := pow_entropy hk.ne'
  rw [abs_of_pos hk, ← weibull_std k hk] at h
  rw [weibull_locScale hl]
  exact locScale_entropy hl (weibull_std_density hk).2 h

end Rstat.Spec
