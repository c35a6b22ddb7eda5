import Verif.Lemmas.Dist.Pareto
import Verif.Lemmas.Dist.Frechet

/-! Generalised Pareto and generalised extreme value laws with positive shape, as location-scale images of the Pareto and
Fréchet laws. -/
namespace Rstat.Spec
open MeasureTheory Filter Topology Set Real

section
variable {m s z : ℝ}

theorem ls_arg (hs : 0 < s) (hz : 0 < z) (x : ℝ) : (x - (m - s / z)) / (s / z) = 1 + z * ((x - m) / s) := by
  field_simp; ring

theorem gev_cdf_eq (hs : 0 < s) (hz : 0 < z) :
    gevCDF m s z = fun x => frechetCDF (1 / z) ((x - (m - s / z)) / (s / z)) := by
  ext x
  have hp : 0 < s / z := div_pos hs hz
  unfold gevCDF frechetCDF
  by_cases h : x ≤ m - s / z
  · have c : (x - (m - s / z)) / (s / z) ≤ 0 := div_nonpos_of_nonpos_of_nonneg (by linarith) hp.le
    rw [if_pos h, if_pos c]
  · have c : ¬ (x - (m - s / z)) / (s / z) ≤ 0 := not_le.2 (div_pos (by linarith) hp)
    rw [if_neg h, if_neg c, ls_arg hs hz, neg_div]

theorem gev_pdf_eq (hs : 0 < s) (hz : 0 < z) :
    gevPDF m s z = locScale (m - s / z) (s / z) (frechetPDF (1 / z)) := by
  ext x
  have hp : 0 < s / z := div_pos hs hz
  unfold gevPDF locScale frechetPDF
  by_cases h : x ≤ m - s / z
  · have c : (x - (m - s / z)) / (s / z) ≤ 0 := div_nonpos_of_nonpos_of_nonneg (by linarith) hp.le
    rw [if_pos h, if_pos c, zero_div]
  · have c : ¬ (x - (m - s / z)) / (s / z) ≤ 0 := not_le.2 (div_pos (by linarith) hp)
    rw [if_neg h, if_neg c, ls_arg hs hz, show -(1 / z + 1) = -1 - 1 / z by ring, show -1 / z = -(1 / z) by ring]
    field_simp

theorem gpd_cdf_eq (hs : 0 < s) (hz : 0 < z) :
    gpdCDF m s z = fun x => paretoCDF 1 (1 / z) ((x - (m - s / z)) / (s / z)) := by
  ext x
  have hp : 0 < s / z := div_pos hs hz
  unfold gpdCDF paretoCDF
  rw [ls_arg hs hz]
  by_cases h : x ≤ m
  · have c : 1 + z * ((x - m) / s) ≤ 1 := by
      have : z * ((x - m) / s) ≤ 0 := mul_nonpos_of_nonneg_of_nonpos hz.le (div_nonpos_of_nonpos_of_nonneg (by linarith) hs.le)
      linarith
    rw [if_pos h, if_pos c]
  · have c0 : 0 < z * ((x - m) / s) := mul_pos hz (div_pos (by linarith) hs)
    have c : ¬ 1 + z * ((x - m) / s) ≤ 1 := by linarith
    rw [if_neg h, if_neg c, one_div (1 + z * ((x - m) / s)), Real.inv_rpow (by linarith), ← Real.rpow_neg (by linarith), neg_div]

theorem gpd_pdf_eq (hs : 0 < s) (hz : 0 < z) :
    gpdPDF m s z = locScale (m - s / z) (s / z) (paretoPDF 1 (1 / z)) := by
  ext x
  have hp : 0 < s / z := div_pos hs hz
  unfold gpdPDF locScale paretoPDF
  rw [ls_arg hs hz]
  by_cases h : x < m
  · have c : 1 + z * ((x - m) / s) < 1 := by
      have : z * ((x - m) / s) < 0 := mul_neg_of_pos_of_neg hz (div_neg_of_neg_of_pos (by linarith) hs)
      linarith
    rw [if_pos h, if_pos c, zero_div]
  · have c0 : 0 ≤ z * ((x - m) / s) := mul_nonneg hz.le (div_nonneg (by linarith) hs.le)
    have c : ¬ 1 + z * ((x - m) / s) < 1 := by linarith
    rw [if_neg h, if_neg c, Real.one_rpow]
    field_simp

theorem gev_density (hs : 0 < s) (hz : 0 < z) : IsCDF (gevCDF m s z) ∧ IsDensityOf (gevPDF m s z) (gevCDF m s z) := by
  obtain ⟨h1, h2⟩ := frechet_density (a := 1 / z) (by positivity)
  rw [gev_cdf_eq hs hz, gev_pdf_eq hs hz]
  exact ⟨locScale_isCDF (by positivity) h1, locScale_density (by positivity) h2⟩

theorem gpd_density (hs : 0 < s) (hz : 0 < z) : IsCDF (gpdCDF m s z) ∧ IsDensityOf (gpdPDF m s z) (gpdCDF m s z) := by
  obtain ⟨h1, h2⟩ := pareto_density (m := 1) (a := 1 / z) one_pos (by positivity)
  rw [gpd_cdf_eq hs hz, gpd_pdf_eq hs hz]
  exact ⟨locScale_isCDF (by positivity) h1, locScale_density (by positivity) h2⟩

theorem gev_central_infinite (hs : 0 < s) (hz : 0 < z) {n : ℕ} (h : 1 ≤ n * z) (c v : ℝ) : ¬ HasCentral (gevPDF m s z) c n v := by
  rw [gev_pdf_eq hs hz]
  exact locScale_no_central (by positivity) (fun c v => frechet_central_infinite (by positivity)
    (by rw [div_le_iff₀ hz]; exact h) c v) c v

theorem gpd_central_infinite (hs : 0 < s) (hz : 0 < z) {n : ℕ} (h : 1 ≤ n * z) (c v : ℝ) : ¬ HasCentral (gpdPDF m s z) c n v := by
  rw [gpd_pdf_eq hs hz]
  exact locScale_no_central (by positivity) (fun c v => pareto_central_infinite one_pos (by positivity)
    (by rw [div_le_iff₀ hz]; exact h) c v) c v

theorem gev_entropy (hs : 0 < s) (hz : 0 < z) : HasEntropy (gevPDF m s z) (Real.log s - digamma 1 * z - digamma 1 + 1) := by
  have h := locScale_entropy (m := m - s / z) (s := s / z) (by positivity) (frechet_density (a := 1 / z) (by positivity)).2
    (frechet_entropy (a := 1 / z) (by positivity))
  rw [← gev_pdf_eq hs hz] at h
  have e : 1 - Real.log (1 / z) - (1 + 1 / (1 / z)) * digamma 1 + Real.log (s / z) =
      Real.log s - digamma 1 * z - digamma 1 + 1 := by
    rw [one_div_one_div, Real.log_div hs.ne' hz.ne', one_div, Real.log_inv]; ring
  rwa [e] at h

theorem gpd_entropy (hs : 0 < s) (hz : 0 < z) : HasEntropy (gpdPDF m s z) (Real.log s + z + 1) := by
  have h := locScale_entropy (m := m - s / z) (s := s / z) (by positivity) (pareto_density (a := 1 / z) one_pos (by positivity)).2
    (pareto_entropy (a := 1 / z) one_pos (by positivity))
  rw [← gpd_pdf_eq hs hz] at h
  have e : Real.log (1 / (1 / z)) + 1 + 1 / (1 / z) + Real.log (s / z) = Real.log s + z + 1 := by
    rw [one_div_one_div, Real.log_div hs.ne' hz.ne']; ring
  rwa [e] at h

/-- raw moments of the standard Fréchet law of shape `1/z` -/
theorem frechet_raw' (hz : 0 < z) (n : ℕ) (h : n * z < 1) : HasCentral (frechetPDF (1 / z)) 0 n (Real.Gamma (1 - n * z)) := by
  have := frechet_raw (a := 1 / z) (by positivity) (n := n) (by rw [lt_div_iff₀ hz]; exact h)
  rwa [div_div_eq_mul_div, div_one] at this

theorem gev_mean (hs : 0 < s) (hz : 0 < z) (h : z < 1) :
    HasMean (gevPDF m s z) (m + s * (Real.Gamma (1 - z) - 1) / z) := by
  have h1 := frechet_raw' hz 1 (by simpa using h)
  rw [Nat.cast_one, one_mul] at h1
  have h2 := locScale_mean (m := m - s / z) (s := s / z) (by positivity) (frechet_density (a := 1 / z) (by positivity)).2
    (hasMean_iff_raw.2 h1)
  rw [← gev_pdf_eq hs hz] at h2
  rwa [show m - s / z + s / z * Real.Gamma (1 - z) = m + s * (Real.Gamma (1 - z) - 1) / z by ring] at h2

theorem gev_var (hs : 0 < s) (hz : 0 < z) (h : 2 * z < 1) :
    HasMeanVar (gevPDF m s z) (m + s * (Real.Gamma (1 - z) - 1) / z)
      (s ^ 2 * (Real.Gamma (1 - 2 * z) - Real.Gamma (1 - z) ^ 2) / z ^ 2) := by
  have hd := (frechet_density (a := 1 / z) (by positivity)).2
  have h1 := frechet_raw' hz 1 (by push_cast; linarith)
  have h2 := frechet_raw' hz 2 (by push_cast; linarith)
  rw [Nat.cast_one, one_mul] at h1
  rw [Nat.cast_ofNat] at h2
  have h3 := central2 hd.integrable hd.total (hasMean_iff_raw.2 h1) h2
  have h4 := locScale_meanVar (m := m - s / z) (s := s / z) (by positivity) hd ⟨hasMean_iff_raw.2 h1, h3⟩
  rw [← gev_pdf_eq hs hz] at h4
  rwa [show m - s / z + s / z * Real.Gamma (1 - z) = m + s * (Real.Gamma (1 - z) - 1) / z by ring,
    show (s / z) ^ 2 * (Real.Gamma (1 - 2 * z) - Real.Gamma (1 - z) ^ 2) =
      s ^ 2 * (Real.Gamma (1 - 2 * z) - Real.Gamma (1 - z) ^ 2) / z ^ 2 by ring] at h4

theorem gev_skew (hs : 0 < s) (hz : 0 < z) (h : 3 * z < 1) :
    0 < Real.Gamma (1 - 2 * z) - Real.Gamma (1 - z) ^ 2 ∧
    HasSkew (gevPDF m s z) ((Real.Gamma (1 - 3 * z) - 3 * Real.Gamma (1 - z) * Real.Gamma (1 - 2 * z) + 2 * Real.Gamma (1 - z) ^ 3) /
      √(Real.Gamma (1 - 2 * z) - Real.Gamma (1 - z) ^ 2) ^ 3) := by
  have hd := (frechet_density (a := 1 / z) (by positivity)).2
  have h1 := frechet_raw' hz 1 (by push_cast; linarith)
  have h2 := frechet_raw' hz 2 (by push_cast; linarith)
  have h3 := frechet_raw' hz 3 (by push_cast; linarith)
  rw [Nat.cast_one, one_mul] at h1
  rw [Nat.cast_ofNat] at h2 h3
  obtain ⟨hv, -, hk⟩ := skew_of_raw hd (hasMean_iff_raw.2 h1) h2 h3
  have h4 := locScale_skew (m := m - s / z) (s := s / z) (by positivity) hd hk
  rw [← gev_pdf_eq hs hz] at h4
  exact ⟨hv, h4⟩

theorem gev_kurt (hs : 0 < s) (hz : 0 < z) (h : 4 * z < 1) :
    0 < Real.Gamma (1 - 2 * z) - Real.Gamma (1 - z) ^ 2 ∧
    HasKurt (gevPDF m s z) ((Real.Gamma (1 - 4 * z) - 4 * Real.Gamma (1 - z) * Real.Gamma (1 - 3 * z) +
      6 * Real.Gamma (1 - z) ^ 2 * Real.Gamma (1 - 2 * z) - 3 * Real.Gamma (1 - z) ^ 4) /
      (Real.Gamma (1 - 2 * z) - Real.Gamma (1 - z) ^ 2) ^ 2) := by
  have hd := (frechet_density (a := 1 / z) (by positivity)).2
  have h1 := frechet_raw' hz 1 (by push_cast; linarith)
  have h2 := frechet_raw' hz 2 (by push_cast; linarith)
  have h3 := frechet_raw' hz 3 (by push_cast; linarith)
  have h4 := frechet_raw' hz 4 (by push_cast; linarith)
  rw [Nat.cast_one, one_mul] at h1
  rw [Nat.cast_ofNat] at h2 h3 h4
  obtain ⟨hv, -, -, hk⟩ := moments_of_raw hd (hasMean_iff_raw.2 h1) h2 h3 h4
  have h5 := locScale_kurt (m := m - s / z) (s := s / z) (by positivity) hd hk
  rw [← gev_pdf_eq hs hz] at h5
  exact ⟨hv, h5⟩

theorem gev_mode (hs : 0 < s) (hz : 0 < z) : IsMode (gevPDF m s z) (m + s * ((1 + z) ^ (-z) - 1) / z) := by
  have h := frechet_mode (a := 1 / z) (by positivity)
  intro x
  rw [gev_pdf_eq hs hz]
  unfold locScale
  have e : (m + s * ((1 + z) ^ (-z) - 1) / z - (m - s / z)) / (s / z) = ((1 / z) / (1 + 1 / z)) ^ (1 / (1 / z)) := by
    rw [one_div_one_div, show 1 / z / (1 + 1 / z) = (1 + z)⁻¹ by field_simp; ring, Real.inv_rpow (by linarith),
      ← Real.rpow_neg (by linarith)]
    field_simp; ring
  rw [e]
  exact div_le_div_of_nonneg_right (h _) (by positivity)

/-! generalised Pareto moments -/
theorem gpd_mean (hs : 0 < s) (hz : 0 < z) (h : z < 1) : HasMean (gpdPDF m s z) (m + s / (1 - z)) := by
  have hd := (pareto_density (a := 1 / z) one_pos (by positivity)).2
  have h1 := pareto_raw (m := 1) (a := 1 / z) one_pos (by positivity) (n := 1) (by rw [lt_div_iff₀ hz]; simpa using h)
  have h2 := locScale_mean (m := m - s / z) (s := s / z) (by positivity) hd (hasMean_iff_raw.2 h1)
  rw [← gpd_pdf_eq hs hz] at h2
  have h3 : 1 - z ≠ 0 := by linarith
  have h4 : 1 / z - 1 ≠ 0 := by rw [div_sub_one hz.ne']; exact div_ne_zero h3 hz.ne'
  have e : m - s / z + s / z * (1 / z * 1 ^ 1 / (1 / z - ((1:ℕ):ℝ))) = m + s / (1 - z) := by
    rw [Nat.cast_one, pow_one, mul_one]; field_simp; ring
  rwa [e] at h2

theorem gpd_var (hs : 0 < s) (hz : 0 < z) (h : 2 * z < 1) :
    HasMeanVar (gpdPDF m s z) (m + s / (1 - z)) (s ^ 2 / ((1 - z) ^ 2 * (1 - 2 * z))) := by
  refine ⟨gpd_mean hs hz (by linarith), ?_⟩
  have hd := (pareto_density (a := 1 / z) one_pos (by positivity)).2
  have h1 := pareto_raw (m := 1) (a := 1 / z) one_pos (by positivity) (n := 1) (by rw [lt_div_iff₀ hz]; push_cast; linarith)
  have h2 := pareto_raw (m := 1) (a := 1 / z) one_pos (by positivity) (n := 2) (by rw [lt_div_iff₀ hz]; push_cast; linarith)
  have h3 := central2 hd.integrable hd.total (hasMean_iff_raw.2 h1) h2
  have h4 := locScale_central (m := m - s / z) (s := s / z) (by positivity) h3
  rw [← gpd_pdf_eq hs hz] at h4
  have h5 : 1 - z ≠ 0 := by linarith
  have h6 : 1 - 2 * z ≠ 0 := by linarith
  have h7 : 1 / z - 1 ≠ 0 := by rw [div_sub_one hz.ne']; exact div_ne_zero h5 hz.ne'
  have h8 : 1 / z - 2 ≠ 0 := by
    rw [div_sub' hz.ne']; exact div_ne_zero (by rw [mul_comm z 2]; exact h6) hz.ne'
  have e : m - s / z + s / z * (1 / z * 1 ^ 1 / (1 / z - ((1:ℕ):ℝ))) = m + s / (1 - z) := by
    rw [Nat.cast_one, pow_one, mul_one]; field_simp; ring
  rw [e] at h4
  refine h4.congr_val ?_
  simp only [Nat.cast_one, Nat.cast_ofNat, one_pow, mul_one]
  rw [div_sub' hz.ne', div_sub_one hz.ne', mul_comm z 2]
  have h9 : 1 - z * 2 ≠ 0 := by rw [mul_comm]; exact h6
  field_simp
  ring
end
end Rstat.Spec
