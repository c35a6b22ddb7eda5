import Verif.Model.Dist.BetaFamily
import Verif.Lemmas.Dist.Student
import Verif.Lemmas.DistBase
import Verif.Lemmas.Positive

/-! Properties C155–C158: Student's t law. -/
set_option linter.unusedSectionVars false
namespace Rstat
open F64 Consts Spec MeasureTheory ProbabilityTheory Set Filter Topology

theorem StudentT.new_ok [FP] {n : F64} {d : StudentT} : StudentT.new n = .ok d ↔ d = ⟨n⟩ := by
  simp only [StudentT.new, exc_bind_ok, Loc.new_ok]
  constructor
  · rintro ⟨_, rfl, h⟩; cases h; rfl
  · rintro rfl; exact ⟨_, rfl, rfl⟩

section
variable [FP] [FP.Exact] {nu : F64} {n : ℝ} {d : StudentT}

/-- C155 (violated): `new` accepts every number, also the meaningless ones: NaN and every negative number of degrees of
freedom pass, and then the density is NaN at every point. -/
theorem C155_student_new_violated :
    (∀ nu : F64, ∃ d, StudentT.new nu = .ok d) ∧
    (∀ d, StudentT.new nan = .ok d → ∀ x, d.pdf x = nan) ∧
    (∀ (nu : F64) (n : ℝ) (d : StudentT), nu.Is n → n < 0 → StudentT.new nu = .ok d → ∀ x, d.pdf x = nan) := by
  refine ⟨fun nu => ⟨⟨nu⟩, StudentT.new_ok.2 rfl⟩, fun d hd x => ?_, fun nu n d hn h0 hd x => ?_⟩
  · obtain rfl := StudentT.new_ok.1 hd
    unfold StudentT.pdf; dsimp only
    rw [Rstat.nan_mul PI, show (nan : F64).sqrt = nan from rfl, Rstat.div_nan, Rstat.nan_div, Rstat.nan_mul]
  · obtain rfl := StudentT.new_ok.1 hd
    unfold StudentT.pdf; dsimp only
    rw [Rstat.sqrt_neg_nan (hn.mul PI_is) (mul_neg_of_neg_of_pos h0 Real.pi_pos), Rstat.div_nan, Rstat.nan_div, Rstat.nan_mul]

/-- C156: for a positive number of degrees of freedom: density, mean, variance, skewness and kurtosis (returned exactly when they
exist), median, mode. -/
theorem C156_student (h : StudentT.new nu = .ok d) (hn : nu.Is n) (n0 : 0 < n) :
    Computes d.pdf (studentPDF n) univ ∧
    IsCDF (studentCDF n) ∧ IsDensityOf (studentPDF n) (studentCDF n) ∧
    (1 < n → ∃ m, Returns d.mean m ∧ HasMean (studentPDF n) m) ∧
    (n ≤ 1 → d.mean = .error .undefined ∧ ∀ m, ¬ HasMean (studentPDF n) m) ∧
    (2 < n → ∃ m v, Returns d.variance v ∧ HasMeanVar (studentPDF n) m v) ∧
    (n ≤ 2 → d.variance = .error .undefined ∧ ∀ m v, ¬ HasMeanVar (studentPDF n) m v) ∧
    (3 < n → ∃ s, Returns d.skewness s ∧ HasSkew (studentPDF n) s) ∧
    (n ≤ 3 → d.skewness = .error .undefined ∧ ∀ s, ¬ HasSkew (studentPDF n) s) ∧
    (4 < n → ∃ k, Returns (d.excessKurtosis.map (· + 3)) k ∧ HasKurt (studentPDF n) k) ∧
    (n ≤ 4 → d.excessKurtosis = .error .undefined ∧ ∀ k, ¬ HasKurt (studentPDF n) k) ∧
    (∃ m, d.median.Is m ∧ IsQuantile (studentCDF n) (1 / 2) m) ∧
    (∃ x m, d.modes = [x] ∧ x.Is m ∧ ∀ t, t ≠ m → studentPDF n t < studentPDF n m) := by
  obtain rfl := StudentT.new_ok.1 h
  obtain ⟨hF, hD⟩ := student_density n0
  obtain ⟨r1, r2, r3, r4⟩ := student_moments n0
  have inf : ∀ {k : ℕ}, n ≤ k → ∀ m v, ¬ HasCentral (studentPDF n) m k v := fun hk => student_central_infinite n0 hD.integrable hk
  have nle : ∀ {c : ℝ} {x : F64}, x.Is c → c < n → ¬ nu ≤ x := fun hc hlt hle =>
    absurd ((hn.le_iff hc).1 hle) (not_le.2 hlt)
  have yle : ∀ {c : ℝ} {x : F64}, x.Is c → n ≤ c → nu ≤ x := fun hc hle => (hn.le_iff hc).2 hle
  have i1 : (1 : F64).Is 1 := Is.one
  have i2 : (2 : F64).Is 2 := Is.num 2
  have i3 : (3 : F64).Is 3 := Is.num 3
  have i4 : (4 : F64).Is 4 := Is.num 4
  refine ⟨fun x t _ hx => ?_, hF, hD, fun hc => ⟨_, ⟨0, ?_, Is.zero⟩, r1 hc⟩, fun hc => ⟨?_, fun m hm => ?_⟩,
    fun hc => ⟨_, _, ⟨nu / (nu - 2), ?_, ?_⟩, r2 hc⟩, fun hc => ⟨?_, fun m v hm => inf (k := 2) (by push_cast; exact hc) m v hm.2⟩,
    fun hc => ⟨_, ⟨0, ?_, Is.zero⟩, r3 hc⟩, fun hc => ⟨?_, ?_⟩, fun hc => ⟨_, ⟨6 / (nu - 4) + 3, ?_, ?_⟩, r4 hc⟩, fun hc => ⟨?_, ?_⟩,
    ⟨0, Is.zero, ?_⟩, ⟨0, 0, rfl, Is.zero, student_mode n0⟩⟩
  · have g1 := Real.Gamma_pos_of_pos (show 0 < (n + 1) / 2 by positivity)
    have g2 := Real.Gamma_pos_of_pos (show 0 < n / 2 by positivity)
    have hq : 0 < Real.sqrt (n * Real.pi) := Real.sqrt_pos.2 (mul_pos n0 Real.pi_pos)
    have hb : 0 < 1 + t * t / n := by have := div_nonneg (mul_self_nonneg t) n0.le; linarith
    have a1 : ((nu + 1) / 2).Is ((n + 1) / 2) := (hn.add i1).div i2 (by norm_num)
    have e : (StudentT.pdf ⟨nu⟩ x).Is (Real.Gamma ((n + 1) / 2) / Real.sqrt (n * Real.pi) / Real.Gamma (n / 2) * (1 + t * t / n) ^ (-((n + 1) / 2))) :=
      (((a1.gamma (by positivity)).div ((hn.mul PI_is).sqrt (mul_pos n0 Real.pi_pos).le) hq.ne').div
        ((hn.div i2 (by norm_num)).gamma (by positivity)) g2.ne').mul ((i1.add ((hx.mul hx).div hn n0.ne')).powf a1.neg hb)
    refine e.congr ?_
    rw [studentPDF, div_div, neg_div, sq]
  · unfold StudentT.mean; rw [if_neg (nle i1 hc)]
  · unfold StudentT.mean; rw [if_pos (yle i1 hc)]
  · exact inf (k := 1) (by push_cast; exact hc) 0 m (hasMean_iff_raw.1 hm)
  · unfold StudentT.variance; rw [if_neg (nle i1 (by linarith)), if_neg (nle i2 hc)]
  · exact hn.div (hn.sub i2) (by linarith)
  · unfold StudentT.variance
    split_ifs with h1 h2
    · rfl
    · rfl
    · exact absurd (yle i2 hc) h2
  · unfold StudentT.skewness; rw [if_neg (nle i3 hc)]
  · unfold StudentT.skewness; rw [if_pos (yle i3 hc)]
  · rintro s ⟨m, v, _, _, hm⟩
    exact inf (k := 3) (by push_cast; exact hc) _ _ hm
  · unfold StudentT.excessKurtosis; rw [if_neg (nle i2 (by linarith)), if_neg (nle i4 hc)]; rfl
  · exact ((Is.num 6).div (hn.sub i4) (by linarith)).add i3
  · unfold StudentT.excessKurtosis
    split_ifs with h1 h2
    · rfl
    · rfl
    · exact absurd (yle i4 hc) h2
  · rintro s ⟨m, v, _, _, hm⟩
    exact inf (k := 4) (by push_cast; exact hc) _ _ hm
  · refine ⟨(student_cdf_zero n0).ge, fun y hy => ?_⟩
    by_contra hlt
    have := student_cdf_strictMono n0 (not_le.1 hlt)
    rw [student_cdf_zero n0] at this
    exact absurd hy (not_le.2 this)

/-- what `cdf` computes: the deviation from 1/2 is multiplied by `Γ(ν/2)²` -/
theorem StudentT.cdf_is (hn : nu.Is n) (n0 : 0 < n) {x : F64} {t : ℝ} (hx : x.Is t) :
    (StudentT.cdf ⟨nu⟩ x).val.Is (1 / 2 + (studentCDF n t - 1 / 2) * Real.Gamma (n / 2) ^ 2) := by
  have g2 := Real.Gamma_pos_of_pos (show 0 < n / 2 by positivity)
  have hq : 0 < Real.sqrt (n * Real.pi) := Real.sqrt_pos.2 (mul_pos n0 Real.pi_pos)
  have i1 : (1 : F64).Is 1 := Is.one
  have i2 : (2 : F64).Is 2 := Is.num 2
  have i3 : (3 : F64).Is 3 := Is.num 3
  have ih : (F64.fin (1 / 2)).Is (1 / 2) := Or.inl rfl
  have a1 : ((nu + 1) / 2).Is ((n + 1) / 2) := (hn.add i1).div i2 (by norm_num)
  have hz : -t * t / n < 1 := by
    have : 0 ≤ t * t / n := div_nonneg (mul_self_nonneg t) n0.le
    have e : -t * t / n = -(t * t / n) := by ring
    linarith
  have hh := Is.hyp2f1 ih a1 (i3.div i2 (by norm_num)) ((hx.neg.mul hx).div hn n0.ne') (by norm_num) (by norm_num) hz
  have e : (StudentT.cdf ⟨nu⟩ x).val.Is (1 / 2 + t * Real.Gamma ((n + 1) / 2) * hyp2f1 (1 / 2) ((n + 1) / 2) (3 / 2) (-t * t / n) /
      Real.sqrt (n * Real.pi) * Real.Gamma (n / 2)) :=
    ih.add ((((hx.mul (a1.gamma (by positivity))).mul hh).div ((hn.mul PI_is).sqrt (mul_pos n0 Real.pi_pos).le) hq.ne').mul
      ((hn.div i2 (by norm_num)).gamma (by positivity)))
  refine e.congr ?_
  rw [student_cdf_hyp n0]
  generalize Real.Gamma (n / 2) = G at *
  field_simp
  ring

/-- C157 (what holds): at zero, and everywhere for exactly two or four degrees of freedom. -/
theorem C157_student_cdf_partial (h : StudentT.new nu = .ok d) (hn : nu.Is n) (n0 : 0 < n) {x : F64} {t : ℝ} (hx : x.Is t)
    (hc : t = 0 ∨ n = 2 ∨ n = 4) : (d.cdf x).val.Is (studentCDF n t) := by
  obtain rfl := StudentT.new_ok.1 h
  refine (StudentT.cdf_is hn n0 hx).congr ?_
  rcases hc with rfl | rfl | rfl
  · rw [student_cdf_zero n0]; ring
  · rw [show (2:ℝ) / 2 = 1 by norm_num, Real.Gamma_one]; ring
  · rw [show (4:ℝ) / 2 = 2 by norm_num, Real.Gamma_two]; ring

/-- C157 (violated): at every other point and number of degrees of freedom the value is wrong (`* Γ(ν/2)` instead of
`/ Γ(ν/2)`); for `ν ≥ 6` it leaves the unit interval for all large `x`. -/
theorem C157_student_cdf_violated (h : StudentT.new nu = .ok d) (hn : nu.Is n) (n0 : 0 < n) :
    (∀ (x : F64) (t : ℝ), x.Is t → t ≠ 0 → n ≠ 2 → n ≠ 4 → ¬ (d.cdf x).val.Is (studentCDF n t)) ∧
    (6 ≤ n → ∃ T : ℝ, ∀ (x : F64) (t : ℝ), x.Is t → T < t → ¬ (d.cdf x).isValid) := by
  obtain rfl := StudentT.new_ok.1 h
  refine ⟨fun x t hx ht h2 h4 hc => ?_, fun h6 => ?_⟩
  · have e := Is.eq (StudentT.cdf_is hn n0 hx) hc
    have hG : Real.Gamma (n / 2) ≠ 1 := fun hG => by
      rcases (Gamma_eq_one_iff (show 0 < n / 2 by positivity)).1 hG with h | h
      · exact h2 (by linarith)
      · exact h4 (by linarith)
    have g0 := Real.Gamma_pos_of_pos (show 0 < n / 2 by positivity)
    have hF : studentCDF n t ≠ 1 / 2 := fun hF => ht ((student_cdf_strictMono n0).injective (hF.trans (student_cdf_zero n0).symm))
    have : (studentCDF n t - 1 / 2) * ((Real.Gamma (n / 2) - 1) * (Real.Gamma (n / 2) + 1)) = 0 := by linear_combination e
    rcases mul_eq_zero.1 this with h | h
    · exact hF (by linarith)
    · rcases mul_eq_zero.1 h with h | h
      · exact hG (by linarith)
      · linarith
  · have hG : 2 ≤ Real.Gamma (n / 2) := by
      have h3 : Real.Gamma 3 = 2 := by
        rw [show (3:ℝ) = 2 + 1 by norm_num, Real.Gamma_add_one (by norm_num), Real.Gamma_two]; norm_num
      have := Real.Gamma_strictMonoOn_Ici.monotoneOn (show (3:ℝ) ∈ Ici 2 by norm_num) (show n / 2 ∈ Ici 2 by show 2 ≤ n / 2; linarith) (show 3 ≤ n / 2 by linarith)
      rwa [h3] at this
    have ht := (student_density n0).1.top
    obtain ⟨T, hT⟩ := (ht.eventually (lt_mem_nhds (show (3 / 4:ℝ) < 1 by norm_num))).exists_forall_of_atTop
    refine ⟨T, fun x t hx htT hv => ?_⟩
    have e := StudentT.cdf_is hn n0 hx
    have := (e.le_iff Is.one).1 hv.1
    have h34 := hT t htT.le
    nlinarith

/-- C158 (violated): the digamma functions of the formula are replaced by Gamma functions and a logarithm is missing: the
returned value is too large for every `ν ≥ 3`, and wrong for one and two degrees of freedom. -/
theorem C158_student_entropy_violated (h : StudentT.new nu = .ok d) (hn : nu.Is n) :
    (3 ≤ n → ∃ H r, HasEntropy (studentPDF n) H ∧ d.shannonEntropy.Is r ∧ H < r) ∧
    (n = 1 ∨ n = 2 → ∃ H r, HasEntropy (studentPDF n) H ∧ d.shannonEntropy.Is r ∧ H ≠ r) := by
  obtain rfl := StudentT.new_ok.1 h
  have key : 0 < n → (StudentT.shannonEntropy ⟨nu⟩).Is
      ((n + 1) / 2 * (Real.Gamma ((n + 1) / 2) - Real.Gamma (n / 2)) + Real.sqrt n * Beta (n / 2) (1 / 2)) := fun n0 => by
    have i2 : (2 : F64).Is 2 := Is.num 2
    have ih : (F64.fin (1 / 2)).Is (1 / 2) := Or.inl rfl
    have a1 : ((nu + 1) / 2).Is ((n + 1) / 2) := (hn.add Is.one).div i2 (by norm_num)
    have a2 : (nu / 2).Is (n / 2) := hn.div i2 (by norm_num)
    exact (a1.mul ((a1.gamma (by positivity)).sub (a2.gamma (by positivity)))).add
      ((hn.sqrt n0.le).mul (a2.beta ih (by positivity) (by norm_num)))
  have l2 := Real.log_two_gt_d9
  have l2' := Real.log_two_lt_d9
  have p1 := Real.pi_gt_d2
  have p2 := Real.pi_lt_d2
  refine ⟨fun h3 => ⟨_, _, student_entropy (by linarith), key (by linarith), student_entropy_lt h3⟩, ?_⟩
  rintro (rfl | rfl)
  · refine ⟨_, _, student_entropy one_pos, key one_pos, fun e => ?_⟩
    have hB : Beta (1 / 2) (1 / 2) = Real.pi := by
      rw [Beta, Real.Gamma_one_half_eq, Real.mul_self_sqrt Real.pi_pos.le]; norm_num
    rw [hB, Real.sqrt_one, one_mul, show ((1:ℝ) + 1) / 2 = 1 by norm_num, Real.Gamma_one, Real.Gamma_one_half_eq, digamma_one, digamma_half] at e
    -- ln(4π) against 1 - √π + π
    have hs : (1.77:ℝ) < Real.sqrt Real.pi := by
      apply Real.lt_sqrt_of_sq_lt
      norm_num at p1 ⊢; linarith
    have hl : (1.09:ℝ) < Real.log Real.pi := by
      have h3 : Real.log 3 < Real.log Real.pi := Real.log_lt_log (by norm_num) Real.pi_gt_three
      have : (1.09:ℝ) < Real.log 3 := by
        have h := Real.log_lt_log (show (0:ℝ) < 2 ^ 19 by norm_num) (show (2:ℝ) ^ 19 < 3 ^ 12 by norm_num)
        rw [Real.log_pow, Real.log_pow] at h
        norm_num at h l2 ⊢
        linarith
      linarith
    norm_num at p2
    linarith
  · refine ⟨_, _, student_entropy two_pos, key two_pos, fun e => ?_⟩
    have e32 : ((2:ℝ) + 1) / 2 = 1 / 2 + 1 := by norm_num
    have hG : Real.Gamma (1 / 2 + 1) = 1 / 2 * Real.sqrt Real.pi := by rw [Real.Gamma_add_one (by norm_num), Real.Gamma_one_half_eq]
    have hs : (1.77:ℝ) < Real.sqrt Real.pi := by
      apply Real.lt_sqrt_of_sq_lt
      norm_num at p1 ⊢; linarith
    have hB : Beta 1 (1 / 2) = 2 := by
      have hp : Real.sqrt Real.pi ≠ 0 := by linarith
      rw [Beta, Real.Gamma_one, add_comm 1 (1 / 2 : ℝ), hG, Real.Gamma_one_half_eq]; field_simp
    have s2 : (1.41:ℝ) < Real.sqrt 2 := by
      apply Real.lt_sqrt_of_sq_lt; norm_num
    rw [e32, show (2:ℝ) / 2 = 1 by norm_num, hB, Real.Gamma_one, hG, digamma_add_one (by norm_num), digamma_one, digamma_half,
      Real.log_mul (by positivity) (by norm_num), Real.log_sqrt (by norm_num)] at e
    norm_num at e s2 hs l2 l2'
    linarith
end

section
attribute [local instance] exactFP exactFP_exact

theorem student_ex : StudentT.new (fin 5) = .ok ⟨fin 5⟩ := StudentT.new_ok.2 rfl

example : ∃ m v, Returns (StudentT.variance ⟨fin 5⟩) v ∧ HasMeanVar (studentPDF 5) m v :=
  (C156_student (n := 5) student_ex (Or.inl rfl) (by norm_num)).2.2.2.2.2.1 (by norm_num)
/-- three degrees of freedom: no skewness, and it is refused -/
example : StudentT.skewness ⟨fin 3⟩ = .error .undefined :=
  ((C156_student (n := 3) (StudentT.new_ok.2 rfl) (Or.inl rfl) (by norm_num)).2.2.2.2.2.2.2.2.1 le_rfl).1
/-- five degrees of freedom, at 1: wrong -/
example : ¬ (StudentT.cdf ⟨fin 5⟩ (fin 1)).val.Is (studentCDF 5 1) :=
  (C157_student_cdf_violated (n := 5) student_ex (Or.inl rfl) (by norm_num)).1 (fin 1) 1 (Or.inl rfl) (by norm_num) (by norm_num) (by norm_num)
/-- two degrees of freedom: right everywhere -/
example (t : ℝ) : (StudentT.cdf ⟨fin 2⟩ (fin t)).val.Is (studentCDF 2 t) :=
  C157_student_cdf_partial (n := 2) (StudentT.new_ok.2 rfl) (Or.inl rfl) (by norm_num) (Or.inl rfl) (Or.inr (Or.inl rfl))
example : ∃ H r, HasEntropy (studentPDF 5) H ∧ (StudentT.shannonEntropy ⟨fin 5⟩).Is r ∧ H < r :=
  (C158_student_entropy_violated (n := 5) student_ex (Or.inl rfl)).1 (by norm_num)
end
end Rstat
