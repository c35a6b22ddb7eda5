import Verif.Props.Dist.Gamma
import Verif.Props.Dist.Weibull
import Verif.Lemmas.Dist.Chi
import Verif.Lemmas.Utils

/-! Properties C93–C95, C132–C136: the Chi-squared and Chi laws. -/
set_option linter.unusedSectionVars false
namespace Rstat
open F64 Consts Spec MeasureTheory ProbabilityTheory Set

theorem ChiSq.new_ok [FP] {k : ℕ} {d : ChiSq} : ChiSq.new k = .ok d ↔ 0 < k ∧ d = ⟨k⟩ := by
  simp only [ChiSq.new, exc_bind_ok, DOF.newU_ok]
  constructor
  · rintro ⟨_, ⟨h0, rfl⟩, h⟩; exact ⟨h0, by cases h; rfl⟩
  · rintro ⟨h0, rfl⟩; exact ⟨_, ⟨h0, rfl⟩, rfl⟩

theorem Chi.new_ok [FP] {k : ℕ} {d : Chi} : Chi.new k = .ok d ↔ 0 < k ∧ d = ⟨k⟩ := by
  simp only [Chi.new, exc_bind_ok, DOF.newU_ok]
  constructor
  · rintro ⟨_, ⟨h0, rfl⟩, h⟩; exact ⟨h0, by cases h; rfl⟩
  · rintro ⟨h0, rfl⟩; exact ⟨_, ⟨h0, rfl⟩, rfl⟩

theorem gammaP_one (x : ℝ) : gammaP 1 x = 1 - Real.exp (-x) := by
  unfold gammaP
  rw [Real.Gamma_one, div_one]
  simp only [sub_self, Real.rpow_zero, one_mul]
  rw [intervalIntegral.integral_comp_neg (fun t => Real.exp t), integral_exp]
  simp

theorem half_in {k : ℕ} : ((k : ℝ) / 2 = 1 ∨ (k : ℝ) / 2 = 2) ↔ k = 2 ∨ k = 4 := by
  constructor
  · rintro (h | h)
    · left; have : (k : ℝ) = 2 := by linarith
      exact_mod_cast this
    · right; have : (k : ℝ) = 4 := by linarith
      exact_mod_cast this
  · rintro (rfl | rfl) <;> norm_num

section
variable [FP] [FP.Exact] {k : ℕ} {d : ChiSq}

theorem ChiSq.ko2_is (k : ℕ) : ((ChiSq.kf ⟨k⟩) / 2).Is ((k : ℝ) / 2) := (Is.ofNat k).div (Is.num 2) two_ne_zero

theorem ChiSq.pdf_is (hk : 0 < k) : Computes (ChiSq.pdf ⟨k⟩) (gammaPDFReal (k / 2) (1 / 2)) (Ioi 0) := by
  intro x t ht hx
  have ht : 0 < t := ht
  have hk' : (0:ℝ) < k / 2 := by have : (0:ℝ) < k := by exact_mod_cast hk
                                 positivity
  have hG := Real.Gamma_pos_of_pos hk'
  have h2 := ChiSq.ko2_is k
  unfold ChiSq.pdf
  dsimp only
  rw [gammaPDF_pos_eq ht]
  have hp : (0:ℝ) < 2 ^ ((k:ℝ) / 2) := by positivity
  refine Is.congr (r := t ^ ((k:ℝ) / 2 - 1) * Real.exp (-t / 2) / (2 ^ ((k:ℝ) / 2) * Real.Gamma ((k:ℝ) / 2)))
    (Is.div (Is.mul (Is.powf hx (h2.sub Is.one) ht) (Is.exp (Is.div (Is.neg hx) (Is.num 2) two_ne_zero)))
      (Is.mul (Is.powf (Is.num 2) h2 two_pos) (h2.gamma hk')) (by positivity)) ?_
  rw [Real.div_rpow zero_le_one zero_le_two, Real.one_rpow, show -t / 2 = -(1 / 2 * t) by ring]
  field_simp

/-- C93 (all of it except for the variance of more than 2^63 degrees of freedom): `pdf` is the density of the
Gamma(k/2, 1/2) law, and mean, variance, skewness, kurtosis, entropy and mode are those of that law. For k = 1 the
density is unbounded at 0, the reported mode, and decreases on the support. -/
theorem C93_chisq_partial (h : ChiSq.new k = .ok d) :
    0 < k ∧ Computes d.pdf (gammaPDFReal (k / 2) (1 / 2)) (Ioi 0) ∧
    IsDensityOf (gammaPDFReal (k / 2) (1 / 2)) (gammaCDF (k / 2) (1 / 2)) ∧
    (∀ pr, 2 * k < 2 ^ 64 → ∃ m v x, d.mean.Is m ∧ d.variance pr = .ok x ∧ x.Is v ∧
      HasMeanVar (gammaPDFReal (k / 2) (1 / 2)) m v) ∧
    (∃ s, d.skewness.Is s ∧ HasSkew (gammaPDFReal (k / 2) (1 / 2)) s) ∧
    (∃ κ, d.kurtosis.Is κ ∧ d.excessKurtosis.Is (κ - 3) ∧ HasKurt (gammaPDFReal (k / 2) (1 / 2)) κ) ∧
    (∃ e, d.shannonEntropy.Is e ∧ HasEntropy (gammaPDFReal (k / 2) (1 / 2)) e) ∧
    (2 ≤ k → ∀ pr, ∃ x m, d.modes pr = .ok [x] ∧ x.Is m ∧ IsMode (gammaPDFReal (k / 2) (1 / 2)) m) ∧
    (k = 1 → (∀ pr, ∃ x, d.modes pr = .ok [x] ∧ x.Is 0) ∧ AntitoneOn (gammaPDFReal (k / 2) (1 / 2)) (Ioi 0)) := by
  obtain ⟨h0, rfl⟩ := ChiSq.new_ok.1 h
  have hk : (0:ℝ) < k := by exact_mod_cast h0
  have hk2 : (0:ℝ) < k / 2 := by positivity
  have hh : (0:ℝ) < 1 / 2 := by norm_num
  have hG := Real.Gamma_pos_of_pos hk2
  have hkf : (ChiSq.kf ⟨k⟩).Is k := Is.ofNat k
  have hko := ChiSq.ko2_is k
  obtain ⟨m2, m3, m4⟩ := gamma_moments hk2 hh
  have hex : (ChiSq.excessKurtosis ⟨k⟩).Is (12 / k) := by unfold ChiSq.excessKurtosis; fev
  refine ⟨h0, ChiSq.pdf_is h0, (gamma_density hk2 hh).2, fun pr hov => ⟨k, ((2 * k : ℕ) : ℝ), F64.ofNat (2 * k), hkf, ?_, ?_, ?_⟩, ⟨_, ?_, m3⟩,
    ⟨_, ?_, ?_, m4⟩, ⟨_, ?_, gamma_entropy hk2 hh⟩,
    fun h2 pr => ⟨F64.ofNat (k - 2), ((k:ℝ) / 2 - 1) / (1 / 2), ?_, ?_, gamma_mode ?_ hh⟩, fun h1 => ⟨fun pr => ⟨F64.ofNat 0, ?_, ?_⟩, ?_⟩⟩
  · unfold ChiSq.variance
    rw [umul_ok (by unfold U64; exact hov)]; rfl
  · exact Is.ofNat _
  · push_cast
    have e1 : (k:ℝ) / 2 / (1 / 2) = k := by ring
    have e2 : (k:ℝ) / 2 / (1 / 2) ^ 2 = 2 * k := by ring
    rwa [e1, e2] at m2
  · unfold ChiSq.skewness
    have h8 : (8 / ChiSq.kf ⟨k⟩).Is (8 / k) := (Is.num 8).div hkf hk.ne'
    refine (h8.sqrt (by positivity)).congr ?_
    have hs : 0 < Real.sqrt (k / 2) := Real.sqrt_pos.2 hk2
    rw [eq_div_iff hs.ne', ← Real.sqrt_mul (by positivity), show (8:ℝ) / k * (k / 2) = 2 ^ 2 by field_simp; norm_num]
    exact Real.sqrt_sq zero_le_two
  · unfold ChiSq.kurtosis
    refine (hex.add (Is.num 3)).congr ?_
    field_simp; ring
  · refine hex.congr ?_
    field_simp; ring
  · unfold ChiSq.shannonEntropy; dsimp only
    refine Is.congr (r := (k:ℝ) / 2 + Real.log (2 * Real.Gamma (k / 2)) + (1 - (k:ℝ) / 2) * Spec.digamma (k / 2))
      ((hko.add (((Is.num 2).mul (hko.gamma hk2)).ln (by positivity))).add ((Is.one.sub hko).mul (hko.digamma hk2))) ?_
    rw [Real.log_mul two_ne_zero hG.ne', one_div, Real.log_inv]; ring
  · unfold ChiSq.modes
    dsimp only
    rw [show Max.max k 2 = k from max_eq_left h2, usub_ok h2]; rfl
  · refine (Is.ofNat _).congr ?_
    rw [Nat.cast_sub h2]; push_cast; ring
  · have : (2:ℝ) ≤ k := by exact_mod_cast h2
    linarith
  · subst h1
    rfl
  · exact (Is.ofNat 0).congr (by simp)
  · intro x hx y hy hxy
    have hx : 0 < x := hx
    have hy : 0 < y := hy
    rw [gammaPDF_pos_eq hx, gammaPDF_pos_eq hy, h1]
    push_cast
    have hG1 := Real.Gamma_pos_of_pos hh
    have a1 : y ^ ((1:ℝ) / 2 - 1) ≤ x ^ ((1:ℝ) / 2 - 1) := Real.rpow_le_rpow_of_nonpos hx hxy (by norm_num)
    have a2 : Real.exp (-(1 / 2 * y)) ≤ Real.exp (-(1 / 2 * x)) := Real.exp_le_exp.2 (by linarith)
    have p1 : (0:ℝ) < (1 / 2) ^ ((1:ℝ) / 2) / Real.Gamma (1 / 2) := by positivity
    have p2 : 0 < x ^ ((1:ℝ) / 2 - 1) := Real.rpow_pos_of_pos hx _
    exact mul_le_mul (mul_le_mul_of_nonneg_left a1 p1.le) a2 (Real.exp_pos _).le (by positivity)

/-- C93 (violated for k ≥ 2^63): the usize product `2 * k` overflows: the debug build panics and the release build
returns 2k − 2^64 instead of the variance 2k. -/
theorem C93_chisq_variance_violated (h : ChiSq.new k = .ok d) (hk : 2 ^ 63 ≤ k) (hk' : k < 2 ^ 64) :
    d.variance .debug = .error .overflow ∧
    ∃ x, d.variance .release = .ok x ∧ x.Is (2 * (k : ℝ) - 2 ^ 64) ∧
      HasCentral (gammaPDFReal (k / 2) (1 / 2)) k 2 (2 * k) := by
  obtain ⟨h0, rfl⟩ := ChiSq.new_ok.1 h
  have hkp : (0:ℝ) < k := by exact_mod_cast h0
  have hn : ¬ 2 * k < U64 := by unfold U64; omega
  have hm : 2 * k % U64 = 2 * k - U64 := by
    have h1 : U64 ≤ 2 * k := by unfold U64; omega
    rw [Nat.mod_eq_sub_mod h1, Nat.mod_eq_of_lt (by unfold U64; omega)]
  have hl : U64 ≤ 2 * k := by unfold U64; omega
  refine ⟨?_, F64.ofNat (2 * k - U64), ?_, ?_, ?_⟩
  · unfold ChiSq.variance umul; rw [if_neg hn]; rfl
  · unfold ChiSq.variance umul; rw [if_neg hn, hm]; rfl
  · refine (Is.ofNat _).congr ?_
    rw [Nat.cast_sub hl]; unfold U64; push_cast; ring
  · have m2 := (gamma_moments (show (0:ℝ) < k / 2 by positivity) (show (0:ℝ) < 1 / 2 by norm_num)).1.2
    have e1 : (k:ℝ) / 2 / (1 / 2) = k := by ring
    have e2 : (k:ℝ) / 2 / (1 / 2) ^ 2 = 2 * k := by ring
    rwa [e1, e2] at m2

/-- C94 (violated): convolution is refused for every pair of different degrees of freedom. -/
theorem C94_chisq_convolve_violated {k' : ℕ} {e : ChiSq} (h : ChiSq.new k = .ok d) (h' : ChiSq.new k' = .ok e) (pr : Profile)
    (hne : k ≠ k') : ∃ err, d.convolve pr e = .ok (.error err) := by
  obtain ⟨h0, rfl⟩ := ChiSq.new_ok.1 h
  obtain ⟨h0', rfl⟩ := ChiSq.new_ok.1 h'
  unfold ChiSq.convolve
  dsimp only
  rcases hq : assertEqU k k' with er | y
  · exact ⟨er, rfl⟩
  · exact absurd ((assertEqU_ok _ _ _).1 hq).1 hne

/-- C94 (what holds): for equal degrees of freedom the result is the law of the sum. -/
theorem C94_chisq_convolve_partial {e : ChiSq} (h : ChiSq.new k = .ok d) (h' : ChiSq.new k = .ok e) (pr : Profile)
    (hov : k + k < 2 ^ 64) :
    ∃ r, d.convolve pr e = .ok (.ok r) ∧ ChiSq.new (k + k) = .ok r ∧
      Computes r.pdf (gammaPDFReal (((k + k : ℕ) : ℝ) / 2) (1 / 2)) (Ioi 0) ∧
      Measure.conv (Law (gammaPDFReal (k / 2) (1 / 2))) (Law (gammaPDFReal (k / 2) (1 / 2))) =
        Law (gammaPDFReal (((k + k : ℕ) : ℝ) / 2) (1 / 2)) := by
  obtain ⟨h0, rfl⟩ := ChiSq.new_ok.1 h
  obtain ⟨h0', rfl⟩ := ChiSq.new_ok.1 h'
  have hk : (0:ℝ) < k := by exact_mod_cast h0
  refine ⟨⟨k + k⟩, ?_, ChiSq.new_ok.2 ⟨by omega, rfl⟩, ChiSq.pdf_is (by omega), ?_⟩
  · unfold ChiSq.convolve
    dsimp only
    rw [(assertEqU_ok k k k).2 ⟨rfl, rfl⟩]
    dsimp only
    rw [uadd_ok (by unfold U64; exact hov)]; rfl
  · rw [gamma_conv (by positivity) (by positivity) (by norm_num)]
    congr 2; push_cast; ring

theorem ChiSq.cdf_is (hk : 0 < k) {x : F64} {t : ℝ} (ht : 0 < t) (hx : x.Is t) :
    (ChiSq.cdf ⟨k⟩ x).val.Is (gammaCDF (k / 2) (1 / 2) t / Real.Gamma (k / 2)) := by
  have hk' : (0:ℝ) < k := by exact_mod_cast hk
  have hk2 : (0:ℝ) < k / 2 := by positivity
  have hG := Real.Gamma_pos_of_pos hk2
  have hko := ChiSq.ko2_is k
  unfold ChiSq.cdf Probability.newUnchecked
  dsimp only
  rw [gammaCDF_pos_eq ht]
  exact (hko.gammainc ((hx.div (Is.num 2) two_ne_zero).congr (by ring)) hk2 (by positivity)).div (hko.gamma hk2) hG.ne'

/-- C132 (violated): at every point of the support, `cdf` is the distribution function only for k = 2 and k = 4. -/
theorem C132_chisq_cdf_violated (h : ChiSq.new k = .ok d) {x : F64} {t : ℝ} (ht : 0 < t) (hx : x.Is t) :
    (d.cdf x).val.Is (gammaCDF (k / 2) (1 / 2) t) ↔ k = 2 ∨ k = 4 := by
  obtain ⟨h0, rfl⟩ := ChiSq.new_ok.1 h
  have hk : (0:ℝ) < k := by exact_mod_cast h0
  have hk2 : (0:ℝ) < k / 2 := by positivity
  have hG := Real.Gamma_pos_of_pos hk2
  have hc := ChiSq.cdf_is h0 ht hx
  have hp : 0 < gammaCDF (k / 2) (1 / 2) t := by rw [gammaCDF_pos_eq ht]; exact gammaP_pos hk2 (by positivity)
  rw [← half_in, ← Gamma_eq_one_iff hk2]
  constructor
  · intro h
    have := hc.eq h
    rw [div_eq_iff hG.ne'] at this
    exact (mul_left_cancel₀ hp.ne' (by linarith : gammaCDF (k / 2) (1 / 2) t * Real.Gamma (k / 2) = gammaCDF (k / 2) (1 / 2) t * 1))
  · intro h; rw [h, div_one] at hc; exact hc

/-- C132 (what holds): the cdf is right for 2 and 4 degrees of freedom. -/
theorem C132_chisq_cdf_partial (h : ChiSq.new k = .ok d) (hk : k = 2 ∨ k = 4) :
    Computes (fun x => (d.cdf x).val) (gammaCDF (k / 2) (1 / 2)) (Ioi 0) :=
  fun _ _ ht hx => (C132_chisq_cdf_violated h ht hx).2 hk

/-- C133 (violated): `median()` is the Wilson–Hilferty approximation, not the median: for k = 2 it returns 2·(8/9)^3 where
the distribution function is not 1/2. -/
theorem C133_chisq_median_violated (h : ChiSq.new 2 = .ok d) :
    ∃ m, d.median.Is m ∧ gammaCDF ((2:ℕ) / 2) (1 / 2) m ≠ 1 / 2 := by
  obtain ⟨h0, rfl⟩ := ChiSq.new_ok.1 h
  have hm : (ChiSq.median ⟨2⟩).Is (2 * (8 / 9) ^ 3) := by
    unfold ChiSq.median
    have hkf : (ChiSq.kf ⟨2⟩).Is 2 := (Is.ofNat 2).congr (by norm_num)
    refine Is.congr (r := 2 * (1 - 2 / 9 / 2) ^ 3) ?_ (by norm_num)
    exact hkf.mul ((Is.one.sub (((Is.num 2).div (Is.num 9) (by norm_num)).div hkf two_ne_zero)).powi 3)
  refine ⟨_, hm, fun hc => ?_⟩
  rw [gammaCDF_pos_eq (by norm_num), show (((2:ℕ):ℝ) / 2) = 1 by norm_num, gammaP_one] at hc
  have h1 : Real.exp (-(1 / 2 * (2 * (8 / 9) ^ 3))) = 1 / 2 := by linarith
  have h2 := congrArg Real.log h1
  rw [Real.log_exp, one_div, Real.log_inv] at h2
  have := Real.log_two_lt_d9
  norm_num at h2 this
  linarith

/-- C133 (what holds): for k = 2 the approximation is within 0.02 of the median 2·ln 2. -/
theorem C133_chisq_median_partial (h : ChiSq.new 2 = .ok d) :
    ∃ m q, d.median.Is m ∧ gammaCDF ((2:ℕ) / 2) (1 / 2) q = 1 / 2 ∧ |m - q| ≤ 0.02 := by
  obtain ⟨h0, rfl⟩ := ChiSq.new_ok.1 h
  have hm : (ChiSq.median ⟨2⟩).Is (2 * (8 / 9) ^ 3) := by
    unfold ChiSq.median
    have hkf : (ChiSq.kf ⟨2⟩).Is 2 := (Is.ofNat 2).congr (by norm_num)
    refine Is.congr (r := 2 * (1 - 2 / 9 / 2) ^ 3) ?_ (by norm_num)
    exact hkf.mul ((Is.one.sub (((Is.num 2).div (Is.num 9) (by norm_num)).div hkf two_ne_zero)).powi 3)
  have l1 := Real.log_two_lt_d9
  have l2 := Real.log_two_gt_d9
  refine ⟨_, 2 * Real.log 2, hm, ?_, ?_⟩
  · rw [gammaCDF_pos_eq (by linarith), show (((2:ℕ):ℝ) / 2) = 1 by norm_num, gammaP_one,
      show -(1 / 2 * (2 * Real.log 2)) = -Real.log 2 by ring, Real.exp_neg, Real.exp_log two_pos]; norm_num
  · rw [abs_le]; norm_num at l1 l2 ⊢; constructor <;> linarith

/-! ### Chi -/
variable {c : Chi}

theorem Chi.cdf_is (hk : 0 < k) {x : F64} {t : ℝ} (ht : 0 < t) (hx : x.Is t) :
    (Chi.cdf ⟨k⟩ x).val.Is (chiCDF k t) := by
  have hk' : (0:ℝ) < k := by exact_mod_cast hk
  have hk2 : (0:ℝ) < k / 2 := by positivity
  have hko : ((Chi.kf ⟨k⟩) / 2).Is ((k : ℝ) / 2) := (Is.ofNat k).div (Is.num 2) two_ne_zero
  unfold Chi.cdf Probability.newUnchecked
  dsimp only
  rw [chiCDF, if_neg (not_le.2 ht)]
  exact hko.gammainc (((hx.mul hx).div (Is.num 2) two_ne_zero).congr (by ring)) hk2 (by positivity)

/-- C134: `pdf`, `cdf`, moments of the first four orders and mode of the Chi law. -/
theorem C134_chi (h : Chi.new k = .ok c) :
    0 < k ∧ Computes c.pdf (chiPDF k) (Ioi 0) ∧ Computes (fun x => (c.cdf x).val) (chiCDF k) (Ioi 0) ∧
    IsCDF (chiCDF k) ∧ IsDensityOf (chiPDF k) (chiCDF k) ∧
    (∃ m v, c.mean.Is m ∧ c.variance.Is v ∧ HasMeanVar (chiPDF k) m v) ∧
    (∃ s, c.skewness.Is s ∧ HasSkew (chiPDF k) s) ∧
    (∃ κ, c.kurtosis.Is κ ∧ c.excessKurtosis.Is (κ - 3) ∧ HasKurt (chiPDF k) κ) ∧
    (2 ≤ k → ∃ x m, c.modes = [x] ∧ x.Is m ∧ IsMode (chiPDF k) m) ∧
    (k = 1 → (∃ x, c.modes = [x] ∧ x.Is 0) ∧ AntitoneOn (chiPDF k) (Ioi 0)) := by
  obtain ⟨h0, rfl⟩ := Chi.new_ok.1 h
  have hk : (0:ℝ) < k := by exact_mod_cast h0
  have hk2 : (0:ℝ) < k / 2 := by positivity
  have hG := Real.Gamma_pos_of_pos hk2
  have hG1 := Real.Gamma_pos_of_pos (show (0:ℝ) < (k + 1) / 2 by positivity)
  have hkf : (Chi.kf ⟨k⟩).Is k := Is.ofNat k
  have hko : ((Chi.kf ⟨k⟩) / 2).Is ((k : ℝ) / 2) := hkf.div (Is.num 2) two_ne_zero
  obtain ⟨hF, hD⟩ := chi_density hk
  obtain ⟨r1, r2, r3, r4⟩ := chi_raws hk
  obtain ⟨hv, m2, m3, m4⟩ := moments_of_raw hD r1 r2 r3 r4
  have hmean : (Chi.mean ⟨k⟩).Is (Real.sqrt 2 * Real.Gamma ((k + 1) / 2) / Real.Gamma (k / 2)) := by unfold Chi.mean; fev
  generalize Real.sqrt 2 * Real.Gamma ((k + 1) / 2) / Real.Gamma (k / 2) = μ at *
  have hvar : (Chi.variance ⟨k⟩).Is (k - μ ^ 2) := by
    unfold Chi.variance
    exact (hkf.sub (hmean.mul hmean)).congr (by ring)
  obtain ⟨σ, hσ, hσv⟩ : ∃ σ : ℝ, 0 < σ ∧ σ ^ 2 = k - μ ^ 2 :=
    ⟨Real.sqrt (k - μ ^ 2), Real.sqrt_pos.2 hv, Real.sq_sqrt hv.le⟩
  have hsq : Real.sqrt (k - μ ^ 2) = σ := by rw [← hσv, Real.sqrt_sq hσ.le]
  have hkv : (k : ℝ) = σ ^ 2 + μ ^ 2 := by linarith
  have hsk : (Chi.skewness ⟨k⟩).Is (μ / σ ^ 3 * (1 - 2 * σ ^ 2)) := by
    unfold Chi.skewness
    have hpw := Is.powf hvar THREE_HALVES_is hv
    rw [rpow_three_halves hv, hsq] at hpw
    rw [← hσv] at hvar
    exact (hmean.div hpw (by positivity)).mul (Is.one.sub ((Is.num 2).mul hvar))
  have hex : (Chi.excessKurtosis ⟨k⟩).Is (2 / σ ^ 2 * (1 - μ * σ * (μ / σ ^ 3 * (1 - 2 * σ ^ 2)) - σ ^ 2)) := by
    unfold Chi.excessKurtosis
    have hs := hvar.sqrt hv.le
    rw [hsq] at hs
    rw [← hσv] at hvar
    exact ((Is.num 2).div hvar (by positivity)).mul ((Is.one.sub ((hmean.mul hs).mul hsk)).sub hvar)
  rw [hsq] at m3
  rw [← hσv] at m4
  have hkurt : (k * (k + 2) - 4 * μ * ((k + 1) * μ) + 6 * μ ^ 2 * k - 3 * μ ^ 4) / (σ ^ 2) ^ 2 =
      2 / σ ^ 2 * (1 - μ * σ * (μ / σ ^ 3 * (1 - 2 * σ ^ 2)) - σ ^ 2) + 3 := by
    rw [hkv]; field_simp; ring
  refine ⟨h0, fun x t ht hx => ?_, fun x t ht hx => Chi.cdf_is h0 ht hx, hF, hD, ⟨_, _, hmean, hvar, m2⟩, ⟨_, hsk.congr ?_, m3⟩,
    ⟨_, ?_, ?_, m4⟩, fun h2 => ⟨(F64.ofNat (k - 1)).sqrt, Real.sqrt (k - 1), ?_, ?_, chi_mode ?_⟩,
    fun h1 => ⟨⟨(F64.ofNat (k - 1)).sqrt, ?_, ?_⟩, ?_⟩⟩
  · have ht : 0 < t := ht
    unfold Chi.pdf
    dsimp only
    rw [chiPDF, if_neg (not_le.2 ht)]
    have hp : (0:ℝ) < 2 ^ ((k:ℝ) / 2 - 1) := by positivity
    refine Is.congr (r := t ^ ((k:ℝ) - 1) * Real.exp (-t * t / 2) / (2 ^ ((k:ℝ) / 2 - 1) * Real.Gamma ((k:ℝ) / 2)))
      (Is.div (Is.mul (Is.powf hx (hkf.sub Is.one) ht) (Is.exp (Is.div (Is.mul (Is.neg hx) hx) (Is.num 2) two_ne_zero)))
        (Is.mul (Is.powf (Is.num 2) (hko.sub Is.one) two_pos) (hko.gamma hk2)) (by positivity)) ?_
    have e : (2:ℝ) ^ (1 - (k:ℝ) / 2) = (2 ^ ((k:ℝ) / 2 - 1))⁻¹ := by
      rw [← Real.rpow_neg zero_le_two]; congr 1; ring
    rw [e, show -t * t / 2 = -t ^ 2 / 2 by ring]
    field_simp
  · rw [hkv]; field_simp; ring
  · unfold Chi.kurtosis
    refine (hex.add (Is.num 3)).congr ?_
    rw [hkurt]
  · refine hex.congr ?_
    rw [hkurt]; ring
  · unfold Chi.modes; rw [if_pos (show 1 ≤ k by omega)]
  · have h3 : (F64.ofNat (k - 1)).Is ((k:ℝ) - 1) := (Is.ofNat _).congr (by rw [Nat.cast_sub (by omega)]; simp)
    have : (2:ℝ) ≤ k := by exact_mod_cast h2
    exact h3.sqrt (by linarith)
  · have : (2:ℝ) ≤ k := by exact_mod_cast h2
    linarith
  · unfold Chi.modes; rw [if_pos (show 1 ≤ k by omega)]
  · subst h1
    have h3 : (F64.ofNat (1 - 1)).Is 0 := (Is.ofNat _).congr (by simp)
    exact (h3.sqrt le_rfl).congr Real.sqrt_zero
  · subst h1
    rw [Nat.cast_one]; exact chi_one_antitone

/-- C135 (violated for every k): the entropy formula lacks the factor 1/2, so `shannon_entropy()` is never the entropy. -/
theorem C135_chi_entropy_violated (h : Chi.new k = .ok c) : ∃ e s, c.shannonEntropy.Is s ∧ HasEntropy (chiPDF k) e ∧ s ≠ e := by
  obtain ⟨h0, rfl⟩ := Chi.new_ok.1 h
  have hk : (0:ℝ) < k := by exact_mod_cast h0
  have hk2 : (0:ℝ) < k / 2 := by positivity
  have hG := Real.Gamma_pos_of_pos hk2
  have hkf : (Chi.kf ⟨k⟩).Is k := Is.ofNat k
  have hko : ((Chi.kf ⟨k⟩) / 2).Is ((k : ℝ) / 2) := hkf.div (Is.num 2) two_ne_zero
  refine ⟨_, Real.log (Real.Gamma (k / 2)) + (k - Real.log 2 - (k - 1) * Spec.digamma (k / 2)), ?_, chi_entropy hk, fun hc => ?_⟩
  · unfold Chi.shannonEntropy; dsimp only
    exact ((hko.gamma hk2).ln hG).add ((hkf.sub ((Is.num 2).ln two_pos)).sub ((hkf.sub Is.one).mul (hko.digamma hk2)))
  · have := chi_entropy_gap k h0
    apply this
    linarith

/-- C135 (what holds): the code's value and the entropy differ by exactly half the bracket. -/
theorem C135_chi_entropy_partial (h : Chi.new k = .ok c) :
    ∃ e, HasEntropy (chiPDF k) e ∧ c.shannonEntropy.Is (2 * e - Real.log (Real.Gamma (k / 2))) := by
  obtain ⟨h0, rfl⟩ := Chi.new_ok.1 h
  have hk : (0:ℝ) < k := by exact_mod_cast h0
  have hk2 : (0:ℝ) < k / 2 := by positivity
  have hG := Real.Gamma_pos_of_pos hk2
  have hkf : (Chi.kf ⟨k⟩).Is k := Is.ofNat k
  have hko : ((Chi.kf ⟨k⟩) / 2).Is ((k : ℝ) / 2) := hkf.div (Is.num 2) two_ne_zero
  refine ⟨_, chi_entropy hk, ?_⟩
  unfold Chi.shannonEntropy; dsimp only
  exact (((hko.gamma hk2).ln hG).add ((hkf.sub ((Is.num 2).ln two_pos)).sub ((hkf.sub Is.one).mul (hko.digamma hk2)))).congr
    (by ring)

theorem Chi.median_two : (Chi.median ⟨2⟩).Is (Real.sqrt (2 * (8 / 9) ^ 3)) := by
  unfold Chi.median
  have hkf : (Chi.kf ⟨2⟩).Is 2 := (Is.ofNat 2).congr (by norm_num)
  have : (Chi.kf ⟨2⟩ * (1 - 2 / 9 / Chi.kf ⟨2⟩).powi 3).Is (2 * (8 / 9) ^ 3) := by
    refine Is.congr (r := 2 * (1 - 2 / 9 / 2) ^ 3) ?_ (by norm_num)
    exact hkf.mul ((Is.one.sub (((Is.num 2).div (Is.num 9) (by norm_num)).div hkf two_ne_zero)).powi 3)
  exact this.sqrt (by norm_num)

/-- C136 (violated): `median()` is the square root of the Wilson–Hilferty approximation: for k = 2 the distribution
function there is not 1/2. -/
theorem C136_chi_median_violated (h : Chi.new 2 = .ok c) : ∃ m, c.median.Is m ∧ chiCDF (2:ℕ) m ≠ 1 / 2 := by
  obtain ⟨h0, rfl⟩ := Chi.new_ok.1 h
  refine ⟨_, Chi.median_two, fun hc => ?_⟩
  rw [chiCDF, if_neg (not_le.2 (by positivity)), Real.sq_sqrt (by norm_num), show (((2:ℕ):ℝ) / 2) = 1 by norm_num,
    gammaP_one] at hc
  have h1 : Real.exp (-(2 * (8 / 9) ^ 3 / 2)) = 1 / 2 := by linarith
  have h2 := congrArg Real.log h1
  rw [Real.log_exp, one_div, Real.log_inv] at h2
  have := Real.log_two_lt_d9
  norm_num at h2 this
  linarith

/-- C136 (what holds): for k = 2 the square of the reported median is within 0.02 of the square of the median. -/
theorem C136_chi_median_partial (h : Chi.new 2 = .ok c) :
    ∃ m q, c.median.Is m ∧ 0 < q ∧ chiCDF (2:ℕ) q = 1 / 2 ∧ |m ^ 2 - q ^ 2| ≤ 0.02 := by
  obtain ⟨h0, rfl⟩ := Chi.new_ok.1 h
  have l1 := Real.log_two_lt_d9
  have l2 := Real.log_two_gt_d9
  have hq : 0 < 2 * Real.log 2 := by linarith
  refine ⟨_, Real.sqrt (2 * Real.log 2), Chi.median_two, Real.sqrt_pos.2 hq, ?_, ?_⟩
  · rw [chiCDF, if_neg (not_le.2 (Real.sqrt_pos.2 hq)), Real.sq_sqrt hq.le, show (((2:ℕ):ℝ) / 2) = 1 by norm_num, gammaP_one,
      show -(2 * Real.log 2 / 2) = -Real.log 2 by ring, Real.exp_neg, Real.exp_log two_pos]; norm_num
  · rw [Real.sq_sqrt (by norm_num), Real.sq_sqrt hq.le, abs_le]; norm_num at l1 l2 ⊢; constructor <;> linarith

/-! ### C95 -/

/-- C95 (violated): at every x > 0, `Chi(k).cdf(x)` and `ChiSq(k).cdf(x²)` agree only for k = 2 and k = 4. -/
theorem C95_chi_vs_chisq_violated (h : ChiSq.new k = .ok d) (h' : Chi.new k = .ok c) {x : F64} {t : ℝ} (ht : 0 < t)
    (hx : x.Is t) : ∃ u v, (c.cdf x).val.Is u ∧ (d.cdf (x * x)).val.Is v ∧ v = u / Real.Gamma (k / 2) ∧
      (u = v ↔ k = 2 ∨ k = 4) := by
  obtain ⟨h0, rfl⟩ := ChiSq.new_ok.1 h
  obtain ⟨_, rfl⟩ := Chi.new_ok.1 h'
  have hk : (0:ℝ) < k := by exact_mod_cast h0
  have hk2 : (0:ℝ) < k / 2 := by positivity
  have hG := Real.Gamma_pos_of_pos hk2
  have h1 := Chi.cdf_is h0 ht hx
  have h2 := ChiSq.cdf_is (k := k) h0 (mul_pos ht ht) (hx.mul hx)
  have hp : 0 < chiCDF k t := by rw [chiCDF, if_neg (not_le.2 ht)]; exact gammaP_pos hk2 (by positivity)
  have e : gammaCDF (k / 2) (1 / 2) (t * t) = chiCDF k t := by
    rw [gammaCDF_pos_eq (mul_pos ht ht), chiCDF, if_neg (not_le.2 ht)]; congr 1; ring
  rw [e] at h2
  refine ⟨_, _, h1, h2, rfl, ?_⟩
  rw [← half_in, ← Gamma_eq_one_iff hk2, eq_div_iff hG.ne']
  constructor
  · intro h; exact mul_left_cancel₀ hp.ne' (by linarith)
  · intro h; rw [h, mul_one]

/-- C95 (what holds): `ChiSq(k)` and `Gamma(k/2, 1/2)` compute the same cdf and pdf values. -/
theorem C95_chisq_is_gamma_partial {a b : F64} {g : Gamma} (h : ChiSq.new k = .ok d) (hg : Gamma.new a b = .ok g)
    (ha : a.Is (k / 2)) (hb : b.Is (1 / 2)) {x : F64} {t : ℝ} (ht : 0 < t) (hx : x.Is t) :
    (∃ u, (d.cdf x).val.Is u ∧ (g.cdf x).val.Is u) ∧ ∃ u, (d.pdf x).Is u ∧ (g.pdf x).Is u := by
  obtain ⟨h0, rfl⟩ := ChiSq.new_ok.1 h
  obtain ⟨h1, h2, rfl⟩ := Gamma.new_ok.1 hg
  have hk : (0:ℝ) < k := by exact_mod_cast h0
  have hk2 : (0:ℝ) < k / 2 := by positivity
  exact ⟨⟨_, ChiSq.cdf_is h0 ht hx, Gamma.cdf_is ha hb hk2 (by norm_num) ht hx⟩,
    ⟨_, ChiSq.pdf_is h0 x t ht hx, Gamma.pdf_is ha hb hk2 (by norm_num) x t ht hx⟩⟩

end

section
attribute [local instance] exactFP exactFP_exact
theorem chisq_ex (k : ℕ) (hk : 0 < k) : ChiSq.new k = .ok ⟨k⟩ := ChiSq.new_ok.2 ⟨hk, rfl⟩
theorem chi_ex (k : ℕ) (hk : 0 < k) : Chi.new k = .ok ⟨k⟩ := Chi.new_ok.2 ⟨hk, rfl⟩
example : ∃ x m, ChiSq.modes ⟨7⟩ .debug = .ok [x] ∧ x.Is m ∧ IsMode (gammaPDFReal ((7:ℕ) / 2) (1 / 2)) m :=
  (C93_chisq_partial (chisq_ex 7 (by norm_num))).2.2.2.2.2.2.2.1 (by norm_num) .debug
example : ∃ err, ChiSq.convolve ⟨3⟩ .debug ⟨4⟩ = .ok (.error err) :=
  C94_chisq_convolve_violated (chisq_ex 3 (by norm_num)) (chisq_ex 4 (by norm_num)) .debug (by norm_num)
example : ¬ (ChiSq.cdf ⟨3⟩ (fin 1)).val.Is (gammaCDF ((3:ℕ) / 2) (1 / 2) 1) := fun h => by
  have := (C132_chisq_cdf_violated (chisq_ex 3 (by norm_num)) one_pos (Is.fin 1)).1 h
  norm_num at this
example : ∃ e s, (Chi.shannonEntropy ⟨7⟩).Is s ∧ HasEntropy (chiPDF (7:ℕ)) e ∧ s ≠ e :=
  C135_chi_entropy_violated (chi_ex 7 (by norm_num))
end
end Rstat
