import Verif.Lemmas.Dist.BetaPrime
import Verif.Lemmas.Dist.Chi

/-! Fisher's F law is a rescaled Beta prime law. Also: `ψ(x) ≥ ln x - 1/x` and the sign of `ψ` at half-integers. -/
namespace Rstat.Spec
open MeasureTheory Real Set Filter Topology

theorem f_locScale {m n : ℝ} (hm : 0 < m) (hn : 0 < n) : fPDF m n = locScale 0 (n / m) (betaPrimePDF (m / 2) (n / 2)) := by
  ext x
  have hs : 0 < n / m := by positivity
  unfold locScale
  rw [sub_zero]
  rcases le_or_gt x 0 with h | h
  · rw [fPDF, if_pos h, betaPrimePDF, if_pos (div_nonpos_of_nonpos_of_nonneg h hs.le), zero_div]
  · have hz : 0 < x / (n / m) := by positivity
    have hB := Beta_pos (show 0 < m / 2 by positivity) (show 0 < n / 2 by positivity)
    rw [fPDF, if_neg (not_le.2 h), betaPrimePDF, if_neg (not_le.2 hz)]
    have e1 : m * x = n * (x / (n / m)) := by field_simp
    have e2 : m * x + n = n * (1 + x / (n / m)) := by rw [e1]; ring
    have e3 : x * Beta (m / 2) (n / 2) = (n / m * Beta (m / 2) (n / 2)) * (x / (n / m)) := by field_simp
    rw [e3, e2, e1]
    generalize x / (n / m) = z at *
    have hz1 : 0 < 1 + z := by linarith
    have key : Real.sqrt ((n * z) ^ m * n ^ n / (n * (1 + z)) ^ (m + n)) = z ^ (m / 2) * (1 + z) ^ (-(m / 2) - n / 2) := by
      rw [Real.mul_rpow hn.le hz.le, Real.mul_rpow hn.le hz1.le, Real.rpow_add hn]
      have hh : n ^ m * z ^ m * n ^ n / (n ^ m * n ^ n * (1 + z) ^ (m + n)) = z ^ m * (1 + z) ^ (-(m + n)) := by
        have p1 : 0 < n ^ m := Real.rpow_pos_of_pos hn _
        have p2 : 0 < n ^ n := Real.rpow_pos_of_pos hn _
        have p3 : 0 < (1 + z) ^ (m + n) := Real.rpow_pos_of_pos hz1 _
        rw [Real.rpow_neg hz1.le]; field_simp
      rw [hh, Real.sqrt_eq_rpow, Real.mul_rpow (by positivity) (by positivity), ← Real.rpow_mul hz.le, ← Real.rpow_mul hz1.le]
      congr 2 <;> ring
    rw [key, Real.rpow_sub hz, Real.rpow_one]
    field_simp

theorem f_cdf_eq {m n : ℝ} (hm : 0 < m) (hn : 0 < n) : fCDF m n = fun x => betaPrimeCDF (m / 2) (n / 2) ((x - 0) / (n / m)) := by
  ext x
  have hs : 0 < n / m := by positivity
  rw [sub_zero]
  rcases le_or_gt x 0 with h | h
  · rw [fCDF, if_pos h, betaPrimeCDF, if_pos (div_nonpos_of_nonpos_of_nonneg h hs.le)]
  · have hz : 0 < x / (n / m) := by positivity
    rw [fCDF, if_neg (not_le.2 h), betaPrimeCDF, if_neg (not_le.2 hz)]
    congr 1
    have : 0 < m * x + n := by positivity
    field_simp
    ring

theorem f_density {m n : ℝ} (hm : 0 < m) (hn : 0 < n) : IsCDF (fCDF m n) ∧ IsDensityOf (fPDF m n) (fCDF m n) := by
  obtain ⟨h1, h2⟩ := bp_density (show 0 < m / 2 by positivity) (show 0 < n / 2 by positivity)
  rw [f_cdf_eq hm hn, f_locScale hm hn]
  exact ⟨locScale_isCDF (by positivity) h1, locScale_density (by positivity) h2⟩

theorem f_central_infinite {m n : ℝ} (hm : 0 < m) (hn : 0 < n) {k : ℕ} (hk : n ≤ 2 * k) (c v : ℝ) : ¬ HasCentral (fPDF m n) c k v := by
  rw [f_locScale hm hn]
  exact locScale_no_central (by positivity) (fun c v => bp_central_infinite (by positivity) (by positivity) (by linarith) c v) c v

theorem f_mean {m n : ℝ} (hm : 0 < m) (hn : 2 < n) : HasMean (fPDF m n) (n / (n - 2)) := by
  have hn0 : 0 < n := by linarith
  rw [f_locScale hm hn0]
  have h := locScale_mean (m := 0) (s := n / m) (by positivity) (bp_density (show 0 < m / 2 by positivity) (show 0 < n / 2 by positivity)).2
    ((bp_raws (a := m / 2) (b := n / 2) (by positivity)).1 (by linarith))
  convert h using 1
  have : n - 2 ≠ 0 := by linarith
  field_simp
  ring

theorem f_meanVar {m n : ℝ} (hm : 0 < m) (hn : 4 < n) :
    HasMeanVar (fPDF m n) (n / (n - 2)) (2 * n * n * (m + (n - 2)) / m / (n - 2) / (n - 2) / (n - 4)) := by
  have hn0 : 0 < n := by linarith
  refine ⟨f_mean hm (by linarith), ?_⟩
  have h := (locScale_meanVar (m := 0) (s := n / m) (by positivity) (bp_density (show 0 < m / 2 by positivity) (show 0 < n / 2 by positivity)).2
    (bp_meanVar (a := m / 2) (b := n / 2) (by positivity) (by linarith)))
  rw [← f_locScale hm hn0] at h
  have n2 : n - 2 ≠ 0 := by linarith
  have n4 : n - 4 ≠ 0 := by linarith
  have n2' : n / 2 - 1 ≠ 0 := by intro h; apply n2; linarith
  have n4' : n / 2 - 2 ≠ 0 := by intro h; apply n4; linarith
  have e1 : 0 + n / m * (m / 2 / (n / 2 - 1)) = n / (n - 2) := by
    rw [show n / 2 - 1 = (n - 2) / 2 by ring]; field_simp; ring
  rw [e1] at h
  refine h.2.congr_val ?_
  rw [show n / 2 - 1 = (n - 2) / 2 by ring, show n / 2 - 2 = (n - 4) / 2 by ring, show m / 2 + n / 2 - 1 = (m + (n - 2)) / 2 by ring]
  field_simp

theorem f_skew {m n : ℝ} (hm : 0 < m) (hn : 6 < n) :
    HasSkew (fPDF m n) ((2 * m + n - 2) * Real.sqrt (8 * (n - 4)) / ((n - 6) * Real.sqrt (m * (m + n - 2)))) := by
  have hn0 : 0 < n := by linarith
  have h := (locScale_skew (m := 0) (s := n / m) (by positivity) (bp_density (show 0 < m / 2 by positivity) (show 0 < n / 2 by positivity)).2
    (bp_skew (a := m / 2) (b := n / 2) (by positivity) (by linarith)))
  rw [← f_locScale hm hn0] at h
  convert h using 1
  have n6 : n - 6 ≠ 0 := by linarith
  have hp : 0 < m * (m + n - 2) := mul_pos hm (by linarith)
  have e : (n / 2 - 2) / (m / 2 * (m / 2 + (n / 2 - 1))) = (8 * (n - 4)) / (m * (m + n - 2)) / 2 ^ 2 := by
    rw [show m / 2 + (n / 2 - 1) = (m + n - 2) / 2 by ring]
    have : m + n - 2 ≠ 0 := by linarith
    field_simp
    ring
  have hw : 0 < Real.sqrt (m * (m + n - 2)) := Real.sqrt_pos.2 hp
  rw [e, Real.sqrt_div (div_nonneg (by linarith) hp.le), Real.sqrt_div (by linarith), Real.sqrt_sq zero_le_two,
    show n / 2 - 3 = (n - 6) / 2 by ring]
  generalize Real.sqrt (m * (m + n - 2)) = w at *
  generalize Real.sqrt (8 * (n - 4)) = w' at *
  field_simp
  ring

theorem f_kurt {m n : ℝ} (hm : 0 < m) (hn : 8 < n) :
    HasKurt (fPDF m n) (3 + 12 * (m * (5 * n - 22) * (m + (n - 2)) + (n - 4) * (n - 2) ^ 2) / (m * (n - 6) * (n - 8) * (m + (n - 2)))) := by
  have hn0 : 0 < n := by linarith
  have h := (locScale_kurt (m := 0) (s := n / m) (by positivity) (bp_density (show 0 < m / 2 by positivity) (show 0 < n / 2 by positivity)).2
    (bp_kurt (a := m / 2) (b := n / 2) (by positivity) (by linarith)))
  rw [← f_locScale hm hn0] at h
  convert h using 2
  rw [show n / 2 - 1 = (n - 2) / 2 by ring, show n / 2 - 2 = (n - 4) / 2 by ring, show m / 2 + n / 2 - 1 = (m + (n - 2)) / 2 by ring,
    show n / 2 - 3 = (n - 6) / 2 by ring, show n / 2 - 4 = (n - 8) / 2 by ring]
  have : m + (n - 2) ≠ 0 := by linarith
  have : n - 6 ≠ 0 := by linarith
  have : n - 8 ≠ 0 := by linarith
  field_simp
  ring

theorem f_mode {m n : ℝ} (hm : 2 < m) (hn : 0 < n) : IsMode (fPDF m n) ((m - 2) / m * n / (n + 2)) := by
  have hm0 : 0 < m := by linarith
  have h := locScale_mode (s := n / m) (by positivity) (bp_mode (a := m / 2) (b := n / 2) (by linarith) (by positivity))
  rw [← f_locScale hm0 hn] at h
  have e : n / m * ((m / 2 - 1) / (n / 2 + 1)) = (m - 2) / m * n / (n + 2) := by
    rw [show m / 2 - 1 = (m - 2) / 2 by ring, show n / 2 + 1 = (n + 2) / 2 by ring]
    field_simp
  rwa [e] at h

theorem f_antitone {m n : ℝ} (hm : 0 < m) (h2 : m ≤ 2) (hn : 0 < n) : AntitoneOn (fPDF m n) (Ioi 0) := fun x hx y hy hxy => by
  have hs : 0 < n / m := by positivity
  have hx : 0 < x := hx
  have hy : 0 < y := hy
  rw [f_locScale hm hn]
  unfold locScale
  refine div_le_div_of_nonneg_right (bp_antitone (by positivity) (by linarith) (by positivity) ?_ ?_ ?_) hs.le
  · show 0 < (x - 0) / (n / m); rw [sub_zero]; positivity
  · show 0 < (y - 0) / (n / m); rw [sub_zero]; positivity
  · gcongr

theorem f_entropy {m n : ℝ} (hm : 0 < m) (hn : 0 < n) :
    HasEntropy (fPDF m n) (Real.log (Beta (m / 2) (n / 2)) - (m / 2 - 1) * digamma (m / 2) - (n / 2 + 1) * digamma (n / 2) +
      (m / 2 + n / 2) * digamma (m / 2 + n / 2) + Real.log (n / m)) := by
  rw [f_locScale hm hn]
  exact locScale_entropy (m := 0) (s := n / m) (by positivity) (bp_density (show 0 < m / 2 by positivity) (show 0 < n / 2 by positivity)).2
    (bp_entropy (by positivity) (by positivity))

theorem log_le_digamma {x : ℝ} (hx : 0 < x) : Real.log x - 1 / x ≤ digamma x := by
  have hd : HasDerivAt (fun t => Real.log (Real.Gamma t)) (digamma (x + 1)) (x + 1) := by
    have h1 : 0 < x + 1 := by linarith
    refine HasDerivAt.congr_deriv ((gamma_hasDerivAt h1).log (Real.Gamma_pos_of_pos h1).ne') ?_
    rw [mul_div_cancel_left₀ _ (Real.Gamma_pos_of_pos h1).ne']
  have h := Real.convexOn_log_Gamma.slope_le_of_hasDerivAt (x := x) (y := x + 1) hx (by show 0 < x + 1; linarith) (by linarith) hd
  rw [slope_def_field] at h
  simp only [Function.comp] at h
  rw [Real.Gamma_add_one hx.ne', Real.log_mul hx.ne' (Real.Gamma_pos_of_pos hx).ne', add_sub_cancel_right, add_sub_cancel_left, div_one, digamma_add_one hx] at h
  linarith

theorem euler_lt' : Real.eulerMascheroniConstant < 0.605 := by
  have h := Real.eulerMascheroniConstant_lt_eulerMascheroniSeq' 32
  have e : Real.eulerMascheroniSeq' 32 = (harmonic 32 : ℝ) - 5 * Real.log 2 := by
    rw [Real.eulerMascheroniSeq', if_neg (by norm_num)]
    congr 1
    rw [show ((32:ℕ):ℝ) = 2 ^ 5 by norm_num, Real.log_pow]; norm_num
  rw [e] at h
  have h2 : harmonic 32 < 406 / 100 := by simp [harmonic, Finset.sum_range_succ]; norm_num
  have h3 : (harmonic 32 : ℝ) < 406 / 100 := by rw [show (406 / 100 : ℝ) = ((406 / 100 : ℚ) : ℝ) by norm_num]; exact Rat.cast_lt.2 h2
  have := Real.log_two_gt_d9
  norm_num at *
  linarith

/-- the digamma function vanishes at no positive half-integer -/
theorem digamma_half_int_ne {n : ℕ} (hn : 0 < n) : digamma (n / 2) ≠ 0 := by
  have hg := euler_lt'
  have l1 := Real.log_two_gt_d9
  have l2 := Real.log_two_lt_d9
  have g0 : 0 < Real.eulerMascheroniConstant := lt_trans (by norm_num) Real.one_half_lt_eulerMascheroniConstant
  have h1 : digamma 1 < 0 := by rw [digamma_one]; linarith
  have h32 : 0 < digamma (3 / 2) := by
    have := digamma_add_one (a := 1 / 2) (by norm_num)
    rw [digamma_half] at this
    rw [show (3:ℝ) / 2 = 1 / 2 + 1 by norm_num, this]
    norm_num at *
    linarith
  rcases (by omega : n ≤ 2 ∨ 3 ≤ n) with h | h
  · have : (n:ℝ) ≤ 2 := by exact_mod_cast h
    have hp : (0:ℝ) < n := by exact_mod_cast hn
    rcases eq_or_lt_of_le this with e | e
    · rw [e]; norm_num; exact h1.ne
    · exact ((digamma_lt (a := (n:ℝ) / 2) (b := 1) (by positivity) (by linarith)).trans h1).ne
  · have : (3:ℝ) ≤ n := by exact_mod_cast h
    rcases eq_or_lt_of_le this with e | e
    · rw [← e]; exact h32.ne'
    · exact (h32.trans (digamma_lt (a := 3 / 2) (by norm_num) (by linarith))).ne'
end Rstat.Spec
