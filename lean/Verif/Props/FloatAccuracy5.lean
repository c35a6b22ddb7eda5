import Verif.Props.FloatAccuracy4

/-! C266 continued: the uniform law. -/
set_option linter.unusedSectionVars false
namespace Rstat
open F64 Spec Consts
section
variable [FP] [FP.Lawful] [FP.Libm] [FP.Accurate]

/-- C266 (part): the uniform distribution function is within `2^-49 + |l| / w 2^-52` of the real one at every finite f64, where `l` is the lower bound
and `w` the width: the error of the upper bound `l + w`, which the code rounds, is relative to the bound and not to the width -/
theorem C266_uniform_partial {a b : F64} {l w : ℝ} {d : UniformF} (h : UniformF.new a b = .ok d) (fa : IsF64 a) (ha : a.Is l) (hb : b.Is w)
    (w1 : 1 / 2 ^ 900 ≤ w) (w2 : w ≤ 2 ^ 900) (hl : |l| ≤ 2 ^ 52 * w) :
    AccurateCDF d.cdf (uniformCDF l (l + w)) Set.univ (1 / 2 ^ 49 + |l| / w / 2 ^ 52) := by
  obtain ⟨h0, rfl⟩ := UniformF.new_ok.1 h
  have w0 := pos_of_lt h0 hb
  intro x r fx hx _
  have hL : |l| ≤ 2 ^ 952 := by
    refine hl.trans ?_
    rw [show (2:ℝ) ^ 952 = 2 ^ 52 * 2 ^ 900 by rw [← pow_add]]
    exact mul_le_mul_of_nonneg_left w2 (by positivity)
  have hs : |l + w| ≤ 2 ^ 960 := by
    have h1 := abs_add_le l w
    rw [abs_of_pos w0] at h1
    have h2 : (2:ℝ) ^ 960 = 256 * 2 ^ 952 := by rw [show (256:ℝ) = 2 ^ 8 by norm_num, ← pow_add]
    have h3 : (2:ℝ) ^ 900 ≤ 2 ^ 952 := pow_le_pow_right₀ (by norm_num) (by norm_num)
    have h4 : (0:ℝ) ≤ 2 ^ 952 := by positivity
    have h5 := w2.trans h3
    rw [h2]; clear h2 h3; generalize (2:ℝ) ^ 952 = M at *; linarith only [h1, h4, hL, h5]
  have nh : ¬ FP.huge (FP.rnd (l + w)) := fun hh => by
    have := (huge_big hh).trans hs
    exact absurd this (not_le.2 (pow_lt_pow_right₀ (by norm_num) (by norm_num)))
  have hu := add_is ha hb nh
  have eu := FP.Lawful.rnd_err (l + w)
  have tn : (1:ℝ) / 2 ^ 1075 ≤ w / 2 ^ 120 := by
    have : (1:ℝ) / 2 ^ 1075 ≤ 1 / 2 ^ 900 / 2 ^ 120 := by
      rw [div_div, ← pow_add]; exact one_div_le_one_div_of_le (by positivity) (pow_le_pow_right₀ (by norm_num) (by norm_num))
    exact this.trans (by gcongr)
  generalize FP.rnd (l + w) = u at *
  have lw : 0 ≤ |l| / w := div_nonneg (abs_nonneg _) w0.le
  have lw2 : |l| / w ≤ 2 ^ 52 := (div_le_iff₀ w0).2 hl
  have el : |l| = |l| / w * w := (div_mul_cancel₀ _ w0.ne').symm
  have eu2 : |u - (l + w)| ≤ (|l| / w / 2 ^ 53 + 1 / 2 ^ 52) * w := by
    refine eu.trans ?_
    have h1 := abs_add_le l w
    rw [abs_of_pos w0] at h1
    rw [add_mul, show |l| / w / 2 ^ 53 * w = |l| / 2 ^ 53 by rw [div_right_comm, div_mul_cancel₀ _ w0.ne']]
    generalize (1:ℝ) / 2 ^ 1075 = η at *
    have : |l + w| / 2 ^ 53 ≤ (|l| + w) / 2 ^ 53 := by gcongr
    clear hs hL w1 w2 hl
    norm_num at *; linarith only [this, tn, w0]
  obtain ⟨eu3, eu4⟩ := abs_le.1 eu2
  have E0 : 0 ≤ |l| / w / 2 ^ 52 := by positivity
  have E1 : |l| / w / 2 ^ 53 ≤ |l| / w / 2 ^ 52 := by gcongr <;> norm_num
  unfold UniformF.cdf; dsimp only
  by_cases c1 : x < a
  · have c := (hx.lt_iff ha).1 c1
    rw [if_pos c1, uniformCDF, if_pos c]
    exact ⟨0, Is.fin 0, by rw [sub_self, abs_zero]; positivity⟩
  rw [if_neg c1]
  have c1 : l ≤ r := not_lt.1 fun hc => c1 ((hx.lt_iff ha).2 hc)
  rw [uniformCDF, if_neg (not_lt.2 c1), add_sub_cancel_left]
  by_cases c2 : a + b ≤ x
  · have c := (hu.le_iff hx).1 c2
    rw [if_pos c2]
    refine ⟨1, Is.fin 1, ?_⟩
    split_ifs with c3
    · rw [sub_self, abs_zero]; positivity
    · push Not at c3
      rw [show 1 - (r - l) / w = (l + w - r) / w by field_simp; ring, abs_div, abs_of_pos w0, abs_of_pos (by linarith), div_le_iff₀ w0]
      have : l + w - r ≤ (|l| / w / 2 ^ 53 + 1 / 2 ^ 52) * w := by linarith
      refine this.trans (mul_le_mul_of_nonneg_right ?_ w0.le)
      have : (1:ℝ) / 2 ^ 52 ≤ 1 / 2 ^ 49 := by norm_num
      linarith only [this, E1]
  · have c : r < u := not_le.1 fun hc => c2 ((hu.le_iff hx).2 hc)
    rw [if_neg c2]
    have q0 : 0 ≤ (r - l) / w := div_nonneg (by linarith) w0.le
    have q1 : (r - l) / w ≤ 1 + (|l| / w / 2 ^ 53 + 1 / 2 ^ 52) := by
      rw [div_le_iff₀ w0]; linarith
    have q2 : (r - l) / w ≤ 7 / 4 := by
      refine q1.trans ?_
      have : |l| / w / 2 ^ 53 ≤ 2 ^ 52 / 2 ^ 53 := by gcongr
      norm_num at *; linarith only [this]
    have acc := FP.Accurate.sub_acc r l (fx r hx).1 (fa l ha).1
    rw [abs_of_nonneg (sub_nonneg.2 c1)] at acc
    have rl : r - l = (r - l) / w * w := (div_mul_cancel₀ _ w0.ne').symm
    have nD : ¬ FP.huge (FP.rnd (r - l)) := fun hh => by
      have h1 := huge_big hh
      rw [abs_of_nonneg (sub_nonneg.2 c1)] at h1
      have h2 : r - l ≤ 2 * w := by rw [rl]; exact mul_le_mul_of_nonneg_right (by linarith only [q2]) w0.le
      have h3 : (2:ℝ) * w ≤ 2 ^ 901 := by rw [pow_succ]; linarith only [w2]
      exact absurd (h1.trans (h2.trans h3)) (not_le.2 (pow_lt_pow_right₀ (by norm_num) (by norm_num)))
    have hD := sub_is hx ha nD
    obtain ⟨P, hP, Pe⟩ := quot_at Is.one hb one_pos w0 (one_div_le_one_div_of_le w0 w2)
      (by rw [div_le_iff₀ w0]
          have h1 : (2:ℝ) ^ 1000 * (1 / 2 ^ 900) ≤ 2 ^ 1000 * w := by gcongr
          refine le_trans ?_ h1
          rw [mul_one_div, le_div_iff₀ (by positivity), one_mul]
          exact pow_le_pow_right₀ (by norm_num) (by norm_num))
    generalize FP.rnd (r - l) = D at *
    have hw : Within ((x - a) * (1 / b)) ((r - l) / w) (1 / 2 ^ 50) := by
      obtain ⟨D', hD'⟩ : ∃ δ, D = (r - l) * (1 + δ) ∧ |δ| ≤ 1 / 2 ^ 53 := by
        rcases c1.eq_or_lt with rfl | c1
        · rw [sub_self, zero_div, sub_zero] at acc
          have : D = 0 := abs_nonpos_iff.1 acc
          exact ⟨0, by rw [this, sub_self, zero_mul], by rw [abs_zero]; positivity⟩
        · have c0 : 0 < r - l := sub_pos.2 c1
          refine ⟨(D - (r - l)) / (r - l), by field_simp; ring, ?_⟩
          rw [abs_div, abs_of_pos c0, div_le_iff₀ c0]; linarith
      obtain ⟨P', hP'⟩ : ∃ δ, P = 1 / w * (1 + δ) ∧ |δ| ≤ 1 / 2 ^ 52 := by
        have c0 : 0 < 1 / w := by positivity
        refine ⟨(P - 1 / w) / (1 / w), by field_simp; ring, ?_⟩
        rw [abs_div, abs_of_pos c0, div_le_iff₀ c0]; linarith
      have he : |D * P - (r - l) / w| ≤ 13 / 4 * (7 / 4) / 2 ^ 53 := by
        rw [hD'.1, hP'.1, show (r - l) * (1 + D') * (1 / w * (1 + P')) - (r - l) / w = (r - l) / w * (D' + P' + D' * P') by ring, abs_mul,
          abs_of_nonneg q0]
        have h1 := abs_add_le (D' + P') (D' * P')
        have h2 := abs_add_le D' P'
        rw [abs_mul] at h1
        have h3 : |D'| * |P'| ≤ 1 / 2 ^ 53 * (1 / 2 ^ 52) := by gcongr; exact hD'.2; exact hP'.2
        have h4 : |D' + P' + D' * P'| ≤ 13 / 4 / 2 ^ 53 := by
          have := hD'.2; have := hP'.2; norm_num at *; linarith
        calc (r - l) / w * |D' + P' + D' * P'| ≤ 7 / 4 * (13 / 4 / 2 ^ 53) := by gcongr
          _ = _ := by ring
      have := Within.round (ε := 13 / 4 * (7 / 4) / 2 ^ 53) (ρ := 1 / 2 ^ 50) (M := 7 / 4) he (by rw [abs_of_nonneg q0]; exact q2) (by norm_num) (by norm_num)
      obtain ⟨z, hz, hze⟩ := this
      exact ⟨z, hz.of_ext (mul_fin_ext hD hP).symm, hze⟩
    obtain ⟨z, hz, hze⟩ := hw
    refine ⟨z, hz, ?_⟩
    have n49 : (1:ℝ) / 2 ^ 50 + 1 / 2 ^ 52 ≤ 1 / 2 ^ 49 := by norm_num
    split_ifs with c3
    · have q3 : 1 ≤ (r - l) / w := by rw [le_div_iff₀ w0]; linarith
      have t := abs_sub_le z ((r - l) / w) 1
      rw [abs_of_nonneg (sub_nonneg.2 q3)] at t
      linarith only [t, hze, q1, E1, n49]
    · have : (0:ℝ) ≤ 1 / 2 ^ 52 := by positivity
      linarith only [hze, E0, n49, this]
end
end Rstat
