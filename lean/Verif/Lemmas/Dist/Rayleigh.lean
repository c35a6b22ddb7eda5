import Verif.Lemmas.Dist.Weibull
import Mathlib.Analysis.SpecialFunctions.Gaussian.GaussianIntegral
import Mathlib.Analysis.Real.Pi.Bounds

namespace Rstat.Spec
open MeasureTheory Filter Topology Set Real

theorem rayleigh_weibull {s : ℝ} (hs : 0 < s) : rayleighPDF s = weibullPDF (s * √2) 2 := by
  ext x; unfold rayleighPDF weibullPDF
  have h2 : √2 ^ 2 = (2:ℝ) := sq_sqrt (by norm_num)
  split_ifs with h
  · rfl
  · have hx : 0 < x := not_le.1 h
    rw [show (2:ℝ) - 1 = 1 by norm_num, rpow_one, show ((x / (s * √2)) ^ (2:ℝ)) = (x / (s * √2)) ^ 2 from rpow_two _,
      div_pow, mul_pow, h2]
    rw [show 2 / (s * √2) * (x / (s * √2)) = x / s ^ 2 * (2 / √2 ^ 2) by ring, h2, div_self two_ne_zero, mul_one]
    rw [mul_comm (s ^ 2), neg_div]
theorem rayleighCDF_weibull {s : ℝ} : rayleighCDF s = weibullCDF (s * √2) 2 := by
  ext x; unfold rayleighCDF weibullCDF
  have h2 : √2 ^ 2 = (2:ℝ) := sq_sqrt (by norm_num)
  rw [show ((x / (s * √2)) ^ (2:ℝ)) = (x / (s * √2)) ^ 2 from rpow_two _, div_pow, mul_pow, h2, mul_comm (s ^ 2), neg_div]

theorem rayleigh_density {s : ℝ} (hs : 0 < s) : IsCDF (rayleighCDF s) ∧ IsDensityOf (rayleighPDF s) (rayleighCDF s) := by
  rw [rayleigh_weibull hs, rayleighCDF_weibull]; exact weibull_density (by positivity) two_pos

theorem gamma_halves : Real.Gamma (3 / 2) = √π / 2 ∧ Real.Gamma (5 / 2) = 3 * √π / 4 := by
  have h1 : Real.Gamma (3 / 2) = √π / 2 := by
    rw [show (3:ℝ) / 2 = 1 / 2 + 1 by norm_num, Real.Gamma_add_one (by norm_num), Real.Gamma_one_half_eq]; ring
  refine ⟨h1, ?_⟩
  rw [show (5:ℝ) / 2 = 3 / 2 + 1 by norm_num, Real.Gamma_add_one (by norm_num), h1]; ring

theorem rayleigh_raw {s : ℝ} (hs : 0 < s) : HasMean (rayleighPDF s) (s * √(π / 2)) ∧
    HasCentral (rayleighPDF s) 0 2 (2 * s ^ 2) ∧ HasCentral (rayleighPDF s) 0 3 (3 * s ^ 3 * √(π / 2)) ∧
    HasCentral (rayleighPDF s) 0 4 (8 * s ^ 4) := by
  rw [rayleigh_weibull hs]
  have h2 : √2 ^ 2 = (2:ℝ) := sq_sqrt (by norm_num)
  have hn : √2 ≠ (0:ℝ) := by positivity
  have h := weibull_raw (l := s * √2) (k := 2) (by positivity) two_pos
  have e : √(π / 2) = √2 * (√π / 2) := by
    rw [Real.sqrt_div pi_pos.le, div_eq_iff hn]
    calc √π = √π * (2 / 2) := by ring
      _ = √π * (√2 ^ 2 / 2) := by rw [h2]
      _ = _ := by ring
  obtain ⟨g3, g5⟩ := gamma_halves
  refine ⟨hasMean_iff_raw.2 ((h 1).congr_val ?_), (h 2).congr_val ?_, (h 3).congr_val ?_, (h 4).congr_val ?_⟩
  · rw [e, pow_one, Nat.cast_one, show (1:ℝ) + 1 / 2 = 3 / 2 by norm_num, g3]; ring
  · rw [mul_pow, h2, show (1:ℝ) + (2:ℕ) / 2 = 2 by norm_num, Real.Gamma_two]; ring
  · rw [e, mul_pow, show (1:ℝ) + (3:ℕ) / 2 = 5 / 2 by norm_num, g5, show √2 ^ 3 = √2 ^ 2 * √2 by ring, h2]; ring
  · rw [mul_pow, show √2 ^ 4 = (√2 ^ 2) ^ 2 by ring, h2, show (1:ℝ) + (4:ℕ) / 2 = 2 + 1 by norm_num,
      Real.Gamma_add_one two_ne_zero, Real.Gamma_two]; ring

theorem rayleigh_moments {s : ℝ} (hs : 0 < s) :
    HasMeanVar (rayleighPDF s) (s * √(π / 2)) ((4 - π) / 2 * s ^ 2) ∧
    HasSkew (rayleighPDF s) (2 * (π - 3) * √π / √(4 - π) ^ 3) ∧
    HasKurt (rayleighPDF s) ((32 - 3 * π ^ 2) / (4 - π) ^ 2) := by
  obtain ⟨h1, h2, h3, h4⟩ := rayleigh_raw hs
  obtain ⟨hv, a, b, c⟩ := moments_of_raw (rayleigh_density hs).2 h1 h2 h3 h4
  have hp : √(π / 2) ^ 2 = π / 2 := sq_sqrt (by positivity)
  have ev : 2 * s ^ 2 - (s * √(π / 2)) ^ 2 = (4 - π) / 2 * s ^ 2 := by rw [mul_pow, hp]; ring
  rw [ev] at hv a b c
  have h4pi : 0 < 4 - π := by linarith [pi_lt_d2]
  refine ⟨a, ?_, ?_⟩
  · have : (3 * s ^ 3 * √(π / 2) - 3 * (s * √(π / 2)) * (2 * s ^ 2) + 2 * (s * √(π / 2)) ^ 3) /
        √((4 - π) / 2 * s ^ 2) ^ 3 = 2 * (π - 3) * √π / √(4 - π) ^ 3 := by
      have n2 : √2 ≠ (0:ℝ) := by positivity
      have h2' : √2 ^ 2 = (2:ℝ) := sq_sqrt (by norm_num)
      have n4 : √(4 - π) ≠ 0 := (sqrt_pos.2 h4pi).ne'
      rw [Real.sqrt_mul (by positivity), Real.sqrt_sq hs.le, Real.sqrt_div h4pi.le,
        show (3 * s ^ 3 * √(π / 2) - 3 * (s * √(π / 2)) * (2 * s ^ 2) + 2 * (s * √(π / 2)) ^ 3) =
          s ^ 3 * √(π / 2) * (2 * √(π / 2) ^ 2 - 3) by ring, hp, Real.sqrt_div pi_pos.le]
      field_simp
      rw [h2']
    rwa [this] at b
  · have : (8 * s ^ 4 - 4 * (s * √(π / 2)) * (3 * s ^ 3 * √(π / 2)) + 6 * (s * √(π / 2)) ^ 2 * (2 * s ^ 2) -
        3 * (s * √(π / 2)) ^ 4) / ((4 - π) / 2 * s ^ 2) ^ 2 = (32 - 3 * π ^ 2) / (4 - π) ^ 2 := by
      rw [show (8 * s ^ 4 - 4 * (s * √(π / 2)) * (3 * s ^ 3 * √(π / 2)) + 6 * (s * √(π / 2)) ^ 2 * (2 * s ^ 2) -
        3 * (s * √(π / 2)) ^ 4) = s ^ 4 * (8 - 3 * (√(π / 2) ^ 2) ^ 2) by ring, hp]
      field_simp
      ring
    rwa [this] at c

theorem rayleigh_entropy {s : ℝ} (hs : 0 < s) :
    HasEntropy (rayleighPDF s) (1 + Real.log (s / √2) - digamma 1 / 2) := by
  rw [rayleigh_weibull hs]
  have h := weibull_entropy (l := s * √2) (k := 2) (by positivity) two_pos
  have h2 : (2:ℝ) = √2 * √2 := (mul_self_sqrt (by norm_num)).symm
  have e : 1 - Real.log 2 - (1 - 1 / 2) * digamma 1 + Real.log (s * √2) = 1 + Real.log (s / √2) - digamma 1 / 2 := by
    rw [Real.log_mul hs.ne' (by positivity), Real.log_div hs.ne' (by positivity)]
    have : Real.log 2 = Real.log √2 + Real.log √2 := by
      conv_lhs => rw [h2]
      rw [Real.log_mul (by positivity) (by positivity)]
    rw [this]; ring
  rwa [e] at h

end Rstat.Spec
