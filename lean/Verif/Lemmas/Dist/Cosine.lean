import Verif.Lemmas.Moments
import Verif.Lemmas.Law
import Verif.Spec.Families
import Mathlib.Analysis.SpecialFunctions.Integrals.Basic

/-! The raised-cosine law. -/
namespace Rstat.Spec
open MeasureTheory Filter Topology Set Real

theorem sin_pi_deriv (z : ℝ) : HasDerivAt (fun z => sin (π * z)) (π * cos (π * z)) z := by
  have := (Real.hasDerivAt_sin (π * z)).comp z ((hasDerivAt_id z).const_mul π)
  refine HasDerivAt.congr_deriv (f := fun z => sin (π * z)) this ?_
  ring
theorem cos_pi_deriv (z : ℝ) : HasDerivAt (fun z => cos (π * z)) (-(π * sin (π * z))) z := by
  have := (Real.hasDerivAt_cos (π * z)).comp z ((hasDerivAt_id z).const_mul π)
  refine HasDerivAt.congr_deriv (f := fun z => cos (π * z)) this ?_
  ring

theorem cosine_std : cosinePDF 0 1 = fun x => if x ≤ -1 ∨ 1 ≤ x then 0 else (1 + cos (π * x)) / 2 := by
  ext x; unfold cosinePDF; simp only [sub_zero, div_one, zero_sub, zero_add, mul_one]
theorem cosine_std_cdf : cosineCDF 0 1 = clampCDF (-1) 1 fun x => (1 + x + sin (π * x) / π) / 2 := by
  ext x; unfold cosineCDF clampCDF; simp only [sub_zero, div_one, zero_sub, zero_add]
theorem cosine_locScale {m s : ℝ} (hs : 0 < s) : cosinePDF m s = locScale m s (cosinePDF 0 1) := by
  ext x; rw [cosine_std]; unfold cosinePDF locScale
  have h1 : (x - m) / s ≤ -1 ↔ x ≤ m - s := by rw [div_le_iff₀ hs]; constructor <;> intro h <;> linarith
  have h2 : 1 ≤ (x - m) / s ↔ m + s ≤ x := by rw [le_div_iff₀ hs]; constructor <;> intro h <;> linarith
  simp only [h1, h2]
  split_ifs
  · simp
  · field_simp
theorem cosineCDF_locScale {m s : ℝ} (hs : 0 < s) (x : ℝ) : cosineCDF m s x = cosineCDF 0 1 ((x - m) / s) := by
  rw [cosine_std_cdf]; unfold cosineCDF clampCDF
  have h1 : (x - m) / s < -1 ↔ x < m - s := by rw [div_lt_iff₀ hs]; constructor <;> intro h <;> linarith
  have h2 : 1 ≤ (x - m) / s ↔ m + s ≤ x := by rw [le_div_iff₀ hs]; constructor <;> intro h <;> linarith
  simp only [h1, h2]

theorem cosine_std_density : IsCDF (cosineCDF 0 1) ∧ IsDensityOf (cosinePDF 0 1) (cosineCDF 0 1) := by
  rw [cosine_std, cosine_std_cdf]
  refine clamp_density (by norm_num) (fun x _ => ?_) (fun x _ => ?_) ?_ ?_ ?_
  · have h := (((hasDerivAt_id x).const_add 1).add ((sin_pi_deriv x).div_const π)).div_const 2
    refine HasDerivAt.congr_deriv (f := fun x => (1 + x + sin (π * x) / π) / 2) h ?_
    rw [mul_div_cancel_left₀ _ pi_ne_zero]
  · have := neg_one_le_cos (π * x)
    linarith
  · simp
  · norm_num
  · fun_prop

theorem cosine_density {m s : ℝ} (hs : 0 < s) : IsCDF (cosineCDF m s) ∧ IsDensityOf (cosinePDF m s) (cosineCDF m s) := by
  rw [cosine_locScale hs, show cosineCDF m s = fun x => cosineCDF 0 1 ((x - m) / s) from funext (cosineCDF_locScale hs)]
  exact ⟨locScale_isCDF hs cosine_std_density.1, locScale_density hs cosine_std_density.2⟩

/-- raw moments from an antiderivative -/
theorem cosine_raw_of {n : ℕ} {P : ℝ → ℝ} {v : ℝ} (hP : ∀ z, HasDerivAt P (z ^ n * ((1 + cos (π * z)) / 2)) z)
    (hv : P 1 - P (-1) = v) : HasCentral (cosinePDF 0 1) 0 n v := by
  have hc : Continuous fun z : ℝ => z ^ n * ((1 + cos (π * z)) / 2) := by fun_prop
  obtain ⟨h1, h2⟩ := supp_integral (a := -1) (b := 1) (by norm_num) (F := fun x => x ^ n * cosinePDF 0 1 x)
    (G := fun z => z ^ n * ((1 + cos (π * z)) / 2))
    (fun x hx => by rw [cosine_std]; simp only; rw [if_neg (by push Not; exact ⟨hx.1, hx.2⟩)])
    (fun x hx => by rw [cosine_std]; simp only; rw [if_pos (hx.imp le_of_lt le_of_lt), mul_zero]) (hc.intervalIntegrable _ _)
  unfold HasCentral; simp only [sub_zero]
  refine ⟨h1, ?_⟩
  rw [h2, intervalIntegral.integral_eq_sub_of_hasDerivAt (fun x _ => hP x) (hc.intervalIntegrable _ _), hv]

theorem cosine_std_raw : HasCentral (cosinePDF 0 1) 0 1 0 ∧ HasCentral (cosinePDF 0 1) 0 2 (1 / 3 - 2 / π ^ 2) ∧
    HasCentral (cosinePDF 0 1) 0 3 0 ∧ HasCentral (cosinePDF 0 1) 0 4 (1 / 5 - 4 / π ^ 2 + 24 / π ^ 4) := by
  have hpi := pi_ne_zero
  have hp : ∀ (k : ℕ) (z : ℝ), HasDerivAt (fun z : ℝ => z ^ (k + 1)) (((k : ℝ) + 1) * z ^ k) z := fun k z => by
    have := hasDerivAt_pow (k + 1) z
    rwa [Nat.cast_add, Nat.cast_one, Nat.add_sub_cancel] at this
  refine ⟨?_, ?_, ?_, ?_⟩
  · refine cosine_raw_of (P := fun z => (z ^ (1 + 1) / 2 + z * sin (π * z) / π + cos (π * z) / π ^ 2) / 2) (fun z => ?_) ?_
    · have h := (((((hp 1 z).div_const 2).add ((((hasDerivAt_id z).mul (sin_pi_deriv z))).div_const π)).add ((cos_pi_deriv z).div_const (π ^ 2))).div_const 2)
      refine HasDerivAt.congr_deriv (f := fun z => (z ^ (1 + 1) / 2 + z * sin (π * z) / π + cos (π * z) / π ^ 2) / 2) h ?_
      simp only [id, Nat.cast_one]; field_simp; ring
    · simp
  · refine cosine_raw_of (P := fun z => (z ^ (2 + 1) / 3 + z ^ (1 + 1) * sin (π * z) / π + 2 * (z * cos (π * z)) / π ^ 2 - 2 * sin (π * z) / π ^ 3) / 2) (fun z => ?_) ?_
    · have h := ((((((hp 2 z).div_const 3).add (((hp 1 z).mul (sin_pi_deriv z)).div_const π)).add ((((hasDerivAt_id z).mul (cos_pi_deriv z)).const_mul 2).div_const (π ^ 2))).sub (((sin_pi_deriv z).const_mul 2).div_const (π ^ 3))).div_const 2)
      refine HasDerivAt.congr_deriv (f := fun z => (z ^ (2 + 1) / 3 + z ^ (1 + 1) * sin (π * z) / π + 2 * (z * cos (π * z)) / π ^ 2 - 2 * sin (π * z) / π ^ 3) / 2) h ?_
      simp only [id, Nat.cast_one, Nat.cast_ofNat]; field_simp; ring
    · simp; ring
  · refine cosine_raw_of (P := fun z => (z ^ (3 + 1) / 4 + z ^ (2 + 1) * sin (π * z) / π + 3 * (z ^ (1 + 1) * cos (π * z)) / π ^ 2 - 6 * (z * sin (π * z)) / π ^ 3 - 6 * cos (π * z) / π ^ 4) / 2) (fun z => ?_) ?_
    · have h := (((((((hp 3 z).div_const 4).add (((hp 2 z).mul (sin_pi_deriv z)).div_const π)).add ((((hp 1 z).mul (cos_pi_deriv z)).const_mul 3).div_const (π ^ 2))).sub ((((hasDerivAt_id z).mul (sin_pi_deriv z)).const_mul 6).div_const (π ^ 3))).sub (((cos_pi_deriv z).const_mul 6).div_const (π ^ 4))).div_const 2)
      refine HasDerivAt.congr_deriv (f := fun z => (z ^ (3 + 1) / 4 + z ^ (2 + 1) * sin (π * z) / π + 3 * (z ^ (1 + 1) * cos (π * z)) / π ^ 2 - 6 * (z * sin (π * z)) / π ^ 3 - 6 * cos (π * z) / π ^ 4) / 2) h ?_
      simp only [id, Nat.cast_one, Nat.cast_ofNat]; field_simp; ring
    · simp; ring
  · refine cosine_raw_of (P := fun z => (z ^ (4 + 1) / 5 + z ^ (3 + 1) * sin (π * z) / π + 4 * (z ^ (2 + 1) * cos (π * z)) / π ^ 2 - 12 * (z ^ (1 + 1) * sin (π * z)) / π ^ 3 - 24 * (z * cos (π * z)) / π ^ 4 + 24 * sin (π * z) / π ^ 5) / 2) (fun z => ?_) ?_
    · have h := ((((((((hp 4 z).div_const 5).add (((hp 3 z).mul (sin_pi_deriv z)).div_const π)).add ((((hp 2 z).mul (cos_pi_deriv z)).const_mul 4).div_const (π ^ 2))).sub ((((hp 1 z).mul (sin_pi_deriv z)).const_mul 12).div_const (π ^ 3))).sub ((((hasDerivAt_id z).mul (cos_pi_deriv z)).const_mul 24).div_const (π ^ 4))).add (((sin_pi_deriv z).const_mul 24).div_const (π ^ 5))).div_const 2)
      refine HasDerivAt.congr_deriv (f := fun z => (z ^ (4 + 1) / 5 + z ^ (3 + 1) * sin (π * z) / π + 4 * (z ^ (2 + 1) * cos (π * z)) / π ^ 2 - 12 * (z ^ (1 + 1) * sin (π * z)) / π ^ 3 - 24 * (z * cos (π * z)) / π ^ 4 + 24 * sin (π * z) / π ^ 5) / 2) h ?_
      simp only [id, Nat.cast_one, Nat.cast_ofNat]; field_simp; ring
    · simp; field_simp; ring

theorem cosine_moments (m : ℝ) {s : ℝ} (hs : 0 < s) :
    0 < (1:ℝ) / 3 - 2 / π ^ 2 ∧
    HasMeanVar (cosinePDF m s) m (s ^ 2 * (1 / 3 - 2 / π ^ 2)) ∧ HasSkew (cosinePDF m s) 0 ∧
    HasKurt (cosinePDF m s) ((1 / 5 - 4 / π ^ 2 + 24 / π ^ 4) / (1 / 3 - 2 / π ^ 2) ^ 2) := by
  obtain ⟨r1, r2, r3, r4⟩ := cosine_std_raw
  obtain ⟨hv, mv, sk, ku⟩ := moments_of_raw cosine_std_density.2 (hasMean_iff_raw.2 r1) r2 r3 r4
  norm_num at hv mv sk ku
  rw [cosine_locScale hs]
  refine ⟨by simpa using hv, ?_, ?_, ?_⟩
  · have := locScale_meanVar (m := m) hs cosine_std_density.2 mv
    simpa using this
  · exact locScale_skew hs cosine_std_density.2 sk
  · have := locScale_kurt (m := m) hs cosine_std_density.2 ku
    simpa using this

theorem cosine_mode (m : ℝ) {s : ℝ} (hs : 0 < s) : IsMode (cosinePDF m s) m := fun x => by
  unfold cosinePDF
  rw [if_neg (show ¬ (m ≤ m - s ∨ m + s ≤ m) by push Not; constructor <;> linarith)]
  simp only [sub_self, zero_div, mul_zero, cos_zero]
  split_ifs
  · positivity
  · have := cos_le_one (π * ((x - m) / s))
    gcongr

/-- the unclamped formula leaves `[0,1]` off the support -/
theorem cosine_formula_gt {z : ℝ} (hz : 1 < z) : 1 < 1 / 2 * (1 + z + 1 / π * sin (z * π)) := by
  have h : 0 < π * (z - 1) := mul_pos pi_pos (by linarith)
  have e : sin (z * π) = -sin (π * (z - 1)) := by
    rw [show z * π = π * (z - 1) + π by ring, sin_add_pi]
  have := sin_lt h
  rw [e]
  have h2 : 1 / π * sin (π * (z - 1)) < 1 / π * (π * (z - 1)) := by gcongr
  rw [← mul_assoc, one_div_mul_cancel pi_ne_zero, one_mul] at h2
  linarith
theorem cosine_formula_lt {z : ℝ} (hz : z < -1) : 1 / 2 * (1 + z + 1 / π * sin (z * π)) < 0 := by
  have := cosine_formula_gt (z := -z) (by linarith)
  rw [neg_mul, sin_neg] at this
  linarith

end Rstat.Spec
