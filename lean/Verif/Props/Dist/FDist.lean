import Verif.Model.Dist.BetaFamily
import Verif.Lemmas.Dist.FDist
import Verif.Lemmas.DistBase
import Verif.Lemmas.Positive

/-! Properties C151–C154: Fisher's F law. -/
set_option linter.unusedSectionVars false
namespace Rstat
open F64 Consts Spec MeasureTheory ProbabilityTheory Set Filter Topology

theorem FDist.new_ok [FP] {m n : ℕ} {d : FDist} : FDist.new m n = .ok d ↔ 0 < m ∧ 0 < n ∧ d = ⟨m, n⟩ := by
  simp only [FDist.new, exc_bind_ok, DOF.newU_ok]
  constructor
  · rintro ⟨_, ⟨h0, rfl⟩, _, ⟨h1, rfl⟩, h⟩; exact ⟨h0, h1, by cases h; rfl⟩
  · rintro ⟨h0, h1, rfl⟩; exact ⟨_, ⟨h0, rfl⟩, _, ⟨h1, rfl⟩, rfl⟩

section
variable [FP] [FP.Exact] {m n : ℕ} {d : FDist}

/-- C151: the F law: density and distribution function on the support, mean and variance returned exactly when they
exist, interior mode for more than two numerator degrees of freedom (refused otherwise, where the density decreases). -/
theorem C151_f_dist (h : FDist.new m n = .ok d) :
    0 < m ∧ 0 < n ∧
    Computes d.pdf (fPDF m n) (Ioi 0) ∧
    Computes (fun x => (d.cdf x).val) (fCDF m n) (Ici 0) ∧
    IsCDF (fCDF m n) ∧ IsDensityOf (fPDF m n) (fCDF m n) ∧
    (2 < n → ∃ μ, Returns d.mean μ ∧ HasMean (fPDF m n) μ) ∧
    (n ≤ 2 → d.mean = .error .undefined ∧ ∀ μ, ¬ HasMean (fPDF m n) μ) ∧
    (4 < n → ∃ μ v, Returns d.variance v ∧ HasMeanVar (fPDF m n) μ v) ∧
    (n ≤ 4 → d.variance = .error .undefined ∧ ∀ μ v, ¬ HasMeanVar (fPDF m n) μ v) ∧
    (2 < m → ∃ x c, d.modes = .ok [x] ∧ x.Is c ∧ IsMode (fPDF m n) c) ∧
    (m ≤ 2 → d.modes = .error .undefined ∧ AntitoneOn (fPDF m n) (Ioi 0)) := by
  obtain ⟨h0, h1, rfl⟩ := FDist.new_ok.1 h
  have hm : (0:ℝ) < m := by exact_mod_cast h0
  have hn : (0:ℝ) < n := by exact_mod_cast h1
  obtain ⟨hF, hD⟩ := f_density hm hn
  have f1 : (FDist.f1 ⟨m, n⟩).Is m := Is.ofNat m
  have f2 : (FDist.f2 ⟨m, n⟩).Is n := Is.ofNat n
  have i2 : (2 : F64).Is 2 := Is.num 2
  have i4 : (4 : F64).Is 4 := Is.num 4
  have hB := Beta_pos (show (0:ℝ) < m / 2 by positivity) (show (0:ℝ) < n / 2 by positivity)
  refine ⟨h0, h1, fun x t ht hx => ?_, fun x t ht hx => ?_, hF, hD, fun hc => ?_, fun hc => ⟨?_, fun μ hμ => ?_⟩,
    fun hc => ?_, fun hc => ⟨?_, fun μ v hv => ?_⟩, fun hc => ?_, fun hc => ⟨?_, ?_⟩⟩
  · have ht : 0 < t := ht
    have p1 : (0:ℝ) < m * t := by positivity
    have p2 : (0:ℝ) < m * t + n := by positivity
    have p3 : 0 < (m * t) ^ (m:ℝ) * (n:ℝ) ^ (n:ℝ) / (m * t + n) ^ ((m:ℝ) + n) :=
      div_pos (mul_pos (Real.rpow_pos_of_pos p1 _) (Real.rpow_pos_of_pos hn _)) (Real.rpow_pos_of_pos p2 _)
    unfold FDist.pdf; dsimp only
    rw [fPDF, if_neg (not_le.2 ht)]
    refine Is.div (Is.sqrt (Is.div (Is.mul (Is.powf (f1.mul hx) f1 p1) (Is.powf f2 f2 hn))
      (Is.powf ((f1.mul hx).add f2) (f1.add f2) p2) (Real.rpow_pos_of_pos p2 _).ne') p3.le)
      (hx.mul (Is.beta (f1.div i2 two_ne_zero) (f2.div i2 two_ne_zero) (by positivity) (by positivity))) (by positivity)
  · have ht : 0 ≤ t := ht
    have p2 : (0:ℝ) < m * t + n := by positivity
    have e : (FDist.cdf ⟨m, n⟩ x).val.Is (betaI (m * t / (m * t + n)) (m / 2) (n / 2)) :=
      Is.betainc ((f1.mul hx).div ((f1.mul hx).add f2) p2.ne') (f1.div i2 two_ne_zero) (f2.div i2 two_ne_zero) (by positivity)
        ((div_le_one p2).2 (by linarith)) (by positivity) (by positivity)
    refine e.congr ?_
    rw [fCDF]
    split_ifs with h
    · rw [le_antisymm h ht, mul_zero, zero_div, betaI_zero]
    · rfl
  · have hc' : (2:ℝ) < n := by exact_mod_cast hc
    refine ⟨_, ⟨_, ?_, f2.div (f2.sub i2) (by linarith)⟩, f_mean hm hc'⟩
    unfold FDist.mean; rw [if_neg (by show ¬ n ≤ 2; omega)]
  · unfold FDist.mean; rw [if_pos hc]
  · exact f_central_infinite hm hn (k := 1) (by push_cast; norm_num; exact_mod_cast hc) 0 μ (hasMean_iff_raw.1 hμ)
  · have hc' : (4:ℝ) < n := by exact_mod_cast hc
    have n2 : (n:ℝ) - 2 ≠ 0 := by linarith
    have n4 : (n:ℝ) - 4 ≠ 0 := by linarith
    refine ⟨_, _, ⟨_, ?_, ((((((i2.mul f2).mul f2).mul (f1.add (f2.sub i2))).div f1 hm.ne').div (f2.sub i2) n2).div (f2.sub i2) n2).div (f2.sub i4) n4⟩, f_meanVar hm hc'⟩
    unfold FDist.variance; rw [if_neg (by show ¬ n ≤ 4; omega)]
  · unfold FDist.variance; rw [if_pos hc]
  · exact f_central_infinite hm hn (k := 2) (by push_cast; norm_num; exact_mod_cast hc) μ v hv.2
  · have hc' : (2:ℝ) < m := by exact_mod_cast hc
    refine ⟨_, _, ?_, (((f1.sub i2).div f1 hm.ne').mul f2).div (f2.add i2) (by linarith), f_mode hc' hn⟩
    unfold FDist.modes; rw [if_neg (by show ¬ m ≤ 2; omega)]
  · unfold FDist.modes; rw [if_pos hc]
  · exact f_antitone hm (by exact_mod_cast hc) hn

/-- C152 (what holds): the skewness is right for more than six denominator degrees of freedom and refused up to four. -/
theorem C152_f_skewness_partial (h : FDist.new m n = .ok d) :
    (6 < n → ∃ s, Returns d.skewness s ∧ HasSkew (fPDF m n) s) ∧
    (n ≤ 4 → d.skewness = .error .undefined ∧ ∀ s, ¬ HasSkew (fPDF m n) s) := by
  obtain ⟨h0, h1, rfl⟩ := FDist.new_ok.1 h
  have hm : (0:ℝ) < m := by exact_mod_cast h0
  have hn : (0:ℝ) < n := by exact_mod_cast h1
  have f1 : (FDist.f1 ⟨m, n⟩).Is m := Is.ofNat m
  have f2 : (FDist.f2 ⟨m, n⟩).Is n := Is.ofNat n
  have i2 : (2 : F64).Is 2 := Is.num 2
  constructor
  · intro hc
    have hc' : (6:ℝ) < n := by exact_mod_cast hc
    have hp : 0 < (m:ℝ) * (m + n - 2) := mul_pos hm (by linarith)
    refine ⟨_, ⟨_, ?_, Is.div ((((i2.mul f1).add f2).sub i2).mul (Is.sqrt ((Is.num 8).mul (f2.sub (Is.num 4))) ?_))
      ((f2.sub (Is.num 6)).mul (Is.sqrt (f1.mul ((f1.add f2).sub i2)) hp.le)) ?_⟩, f_skew hm hc'⟩
    · unfold FDist.skewness; rw [if_neg (by show ¬ n ≤ 4; omega)]
    · linarith
    · exact mul_ne_zero (by linarith) (Real.sqrt_pos.2 hp).ne'
  · intro hc
    refine ⟨by unfold FDist.skewness; rw [if_pos hc], ?_⟩
    rintro s ⟨_, _, _, _, h3⟩
    exact f_central_infinite hm hn (k := 3) (by have : (n:ℝ) ≤ 4 := by exact_mod_cast hc
                                                push_cast; linarith) _ _ h3

/-- C152 (violated): with five or six denominator degrees of freedom the law has no skewness, yet a value is returned: a
finite *negative* number for five. -/
theorem C152_f_skewness_violated (h : FDist.new m n = .ok d) (hn : 4 < n) (hn' : n ≤ 6) :
    (∃ x, d.skewness = .ok x) ∧ (∀ s, ¬ HasSkew (fPDF m n) s) ∧ (n = 5 → ∃ s, Returns d.skewness s ∧ s < 0) := by
  obtain ⟨h0, h1, rfl⟩ := FDist.new_ok.1 h
  have hm : (0:ℝ) < m := by exact_mod_cast h0
  have hn0 : (0:ℝ) < n := by exact_mod_cast h1
  refine ⟨?_, ?_, ?_⟩
  · unfold FDist.skewness; rw [if_neg (by show ¬ n ≤ 4; omega)]; exact ⟨_, rfl⟩
  · rintro s ⟨_, _, _, _, h3⟩
    have : (n:ℝ) ≤ 6 := by exact_mod_cast hn'
    exact f_central_infinite hm hn0 (k := 3) (by push_cast; linarith) _ _ h3
  · rintro rfl
    have f1 : (FDist.f1 ⟨m, 5⟩).Is m := Is.ofNat m
    have f2 : (FDist.f2 ⟨m, 5⟩).Is 5 := Is.ofNat 5
    have i2 : (2 : F64).Is 2 := Is.num 2
    have hp : 0 < (m:ℝ) * (m + 5 - 2) := mul_pos hm (by linarith)
    have hw := Real.sqrt_pos.2 hp
    have hw' : 0 < Real.sqrt (8 * (5 - 4)) := Real.sqrt_pos.2 (by norm_num)
    refine ⟨_, ⟨_, ?_, Is.div ((((i2.mul f1).add f2).sub i2).mul (Is.sqrt ((Is.num 8).mul (f2.sub (Is.num 4))) ?_))
      ((f2.sub (Is.num 6)).mul (Is.sqrt (f1.mul ((f1.add f2).sub i2)) hp.le)) ?_⟩, ?_⟩
    · unfold FDist.skewness; rw [if_neg (by show ¬ 5 ≤ 4; omega)]
    · norm_num
    · exact mul_ne_zero (by norm_num) hw.ne'
    · refine div_neg_of_pos_of_neg (mul_pos (by linarith) hw') (mul_neg_of_neg_of_pos (by norm_num) hw)

/-- C153 (violated for all parameters): where the kurtosis exists (more than eight denominator degrees of freedom) the
returned excess kurtosis is always too small (a factor 12 is applied to one of two terms only); with five to eight it
does not exist and yet a value is returned. -/
theorem C153_f_kurtosis_violated (h : FDist.new m n = .ok d) :
    (8 < n → ∃ κ k, HasKurt (fPDF m n) κ ∧ Returns d.excessKurtosis k ∧ k < κ - 3) ∧
    (4 < n → n ≤ 8 → (∃ x, d.excessKurtosis = .ok x) ∧ ∀ κ, ¬ HasKurt (fPDF m n) κ) := by
  obtain ⟨h0, h1, rfl⟩ := FDist.new_ok.1 h
  have hm : (0:ℝ) < m := by exact_mod_cast h0
  have hn : (0:ℝ) < n := by exact_mod_cast h1
  have f1 : (FDist.f1 ⟨m, n⟩).Is m := Is.ofNat m
  have f2 : (FDist.f2 ⟨m, n⟩).Is n := Is.ofNat n
  have i2 : (2 : F64).Is 2 := Is.num 2
  constructor
  · intro hc
    have hc' : (8:ℝ) < n := by exact_mod_cast hc
    have p2 : 0 < (n:ℝ) - 2 := by linarith
    have p4 : 0 < (n:ℝ) - 4 := by linarith
    have p6 : 0 < (n:ℝ) - 6 := by linarith
    have p8 : 0 < (n:ℝ) - 8 := by linarith
    refine ⟨_, _, f_kurt hm hc', ⟨_, ?_, Is.div (Is.add ((((Is.num 12).mul f1).mul (((Is.num 5).mul f2).sub (Is.num 22))).mul (f1.add (f2.sub i2)))
      (((f2.sub (Is.num 4)).mul (f2.sub i2)).mul (f2.sub i2))) (((f1.mul (f2.sub (Is.num 6))).mul (f2.sub (Is.num 8))).mul (f1.add (f2.sub i2))) (by positivity)⟩, ?_⟩
    · unfold FDist.excessKurtosis; rw [if_neg (by show ¬ n ≤ 4; omega)]
    · rw [add_sub_cancel_left]
      apply div_lt_div_of_pos_right _ (by positivity)
      have : 0 < ((n:ℝ) - 4) * (n - 2) ^ 2 := by positivity
      nlinarith
  · intro hc hc'
    refine ⟨?_, ?_⟩
    · unfold FDist.excessKurtosis; rw [if_neg (by show ¬ n ≤ 4; omega)]; exact ⟨_, rfl⟩
    · rintro s ⟨_, _, _, _, h3⟩
      have : (n:ℝ) ≤ 8 := by exact_mod_cast hc'
      exact f_central_infinite hm hn (k := 4) (by push_cast; linarith) _ _ h3

/-- C154 (violated): with `a = d1/2`, `b = d2/2` the returned entropy is off by `1/a - 1/b + 2bψ(b) + 2ln(a/b)`: it is
too large whenever `d2 ≥ 5` (whatever `d1`), and wrong whenever `d1 = d2`. -/
theorem C154_f_entropy_violated (h : FDist.new m n = .ok d) :
    ∃ e c, HasEntropy (fPDF m n) e ∧ d.shannonEntropy.Is c ∧
      c - e = 2 / m - 2 / n + n * Spec.digamma (n / 2) + 2 * Real.log (m / n) ∧
      (5 ≤ n → e < c) ∧ (m = n → c ≠ e) := by
  obtain ⟨h0, h1, rfl⟩ := FDist.new_ok.1 h
  have hm : (0:ℝ) < m := by exact_mod_cast h0
  have hn : (0:ℝ) < n := by exact_mod_cast h1
  have f1 : (FDist.f1 ⟨m, n⟩).Is m := Is.ofNat m
  have f2 : (FDist.f2 ⟨m, n⟩).Is n := Is.ofNat n
  have i2 : (2 : F64).Is 2 := Is.num 2
  have hm2 : (0:ℝ) < m / 2 := by positivity
  have hn2 : (0:ℝ) < n / 2 := by positivity
  have hs2 : (0:ℝ) < ((m:ℝ) + n) / 2 := by positivity
  have a1 := f1.div i2 two_ne_zero
  have a2 := f2.div i2 two_ne_zero
  have a3 := (f1.add f2).div i2 two_ne_zero
  have g1 := Real.Gamma_pos_of_pos hm2
  have g2 := Real.Gamma_pos_of_pos hn2
  have g3 := Real.Gamma_pos_of_pos hs2
  have hc : (FDist.shannonEntropy ⟨m, n⟩).Is (Real.log (Real.Gamma (m / 2)) + Real.log (Real.Gamma (n / 2)) - Real.log (Real.Gamma (((m:ℝ) + n) / 2)) +
      (1 - m / 2) * Spec.digamma (1 + m / 2) - (1 - n / 2) * Spec.digamma (1 + n / 2) + (((m:ℝ) + n) / 2) * Spec.digamma (((m:ℝ) + n) / 2) + Real.log (m / n)) := by
    unfold FDist.shannonEntropy; dsimp only
    exact (((((((a1.gamma hm2).ln g1).add ((a2.gamma hn2).ln g2)).sub ((a3.gamma hs2).ln g3)).add
      ((Is.one.sub a1).mul ((Is.one.add a1).digamma (by positivity)))).sub ((Is.one.sub a2).mul ((Is.one.add a2).digamma (by positivity)))).add
      (a3.mul (a3.digamma hs2))).add ((f1.div f2 hn.ne').ln (by positivity))
  have hdiff : (Real.log (Real.Gamma (m / 2)) + Real.log (Real.Gamma (n / 2)) - Real.log (Real.Gamma (((m:ℝ) + n) / 2)) +
      (1 - m / 2) * Spec.digamma (1 + m / 2) - (1 - n / 2) * Spec.digamma (1 + n / 2) + (((m:ℝ) + n) / 2) * Spec.digamma (((m:ℝ) + n) / 2) + Real.log (m / n)) -
      (Real.log (Beta (m / 2) (n / 2)) - (m / 2 - 1) * Spec.digamma (m / 2) - (n / 2 + 1) * Spec.digamma (n / 2) +
      (m / 2 + n / 2) * Spec.digamma (m / 2 + n / 2) + Real.log (n / m)) = 2 / m - 2 / n + n * Spec.digamma (n / 2) + 2 * Real.log (m / n) := by
    have e1 : Real.log (n / m) = - Real.log (m / n) := by rw [← Real.log_inv, inv_div]
    have e2 : Real.log (Beta (m / 2) (n / 2)) = Real.log (Real.Gamma (m / 2)) + Real.log (Real.Gamma (n / 2)) - Real.log (Real.Gamma (((m:ℝ) + n) / 2)) := by
      rw [Beta, ← add_div, Real.log_div (by positivity) g3.ne', Real.log_mul g1.ne' g2.ne']
    rw [e1, e2, add_comm 1 ((m:ℝ) / 2), add_comm 1 ((n:ℝ) / 2), digamma_add_one hm2, digamma_add_one hn2, ← add_div]
    field_simp
    ring
  refine ⟨_, _, f_entropy hm hn, hc, hdiff, fun h5 => sub_pos.1 ?_, fun he => ?_⟩
  · rw [hdiff]
    have h5' : (5:ℝ) ≤ n := by exact_mod_cast h5
    -- `2/m + 2 ln m ≥ 2`
    have k1 : 2 ≤ 2 / (m:ℝ) + 2 * Real.log m := by
      have := Real.log_le_sub_one_of_pos (show (0:ℝ) < 1 / m by positivity)
      rw [Real.log_div one_ne_zero hm.ne', Real.log_one] at this
      have e : (2:ℝ) / m = 2 * (1 / m) := by ring
      rw [e]; linarith
    have k2 := log_le_digamma hn2
    have k3 : n * (Real.log (n / 2) - 1 / (n / 2)) ≤ n * Spec.digamma (n / 2) := mul_le_mul_of_nonneg_left k2 hn.le
    have k4 : n * (Real.log ((n:ℝ) / 2) - 1 / (n / 2)) = n * Real.log (n / 2) - 2 := by field_simp
    rw [k4, Real.log_div hn.ne' two_ne_zero] at k3
    rw [Real.log_div hm.ne' hn.ne']
    -- remaining: `-2/n + n ln(n/2) - 2 ln n > 0`
    have l2 := Real.log_two_gt_d9
    have l2' := Real.log_two_lt_d9
    have l5 : Real.log n - Real.log 2 ≥ 0.9 := by
      have : Real.log (5 / 2) ≤ Real.log (n / 2) := Real.log_le_log (by norm_num) (by linarith)
      rw [Real.log_div hn.ne' two_ne_zero] at this
      have h25 : (0.9:ℝ) ≤ Real.log (5 / 2) := by
        rw [Real.le_log_iff_exp_le (by norm_num)]
        have := Real.exp_one_lt_d9
        have e : Real.exp 0.9 = Real.exp 1 * Real.exp (-0.1) := by rw [← Real.exp_add]; norm_num
        have e2 : Real.exp (-0.1) ≤ 1 / (1 + 0.1) := by
          rw [Real.exp_neg, inv_eq_one_div]
          exact one_div_le_one_div_of_le (by norm_num) (by linarith [Real.add_one_le_exp (0.1:ℝ)])
        rw [e]
        have := Real.exp_pos (-0.1)
        nlinarith
      linarith
    have q : 2 / (n:ℝ) ≤ 2 / 5 := by gcongr
    nlinarith
  · rw [← sub_ne_zero, hdiff]
    subst he
    rw [sub_self, zero_add, div_self hm.ne', Real.log_one, mul_zero, add_zero]
    exact mul_ne_zero hm.ne' (digamma_half_int_ne h0)
end

section
attribute [local instance] exactFP exactFP_exact
theorem f_ex : FDist.new 4 10 = .ok ⟨4, 10⟩ := FDist.new_ok.2 ⟨by norm_num, by norm_num, rfl⟩
theorem f_ex5 : FDist.new 4 5 = .ok ⟨4, 5⟩ := FDist.new_ok.2 ⟨by norm_num, by norm_num, rfl⟩
example : ∃ s, Returns (FDist.skewness ⟨4, 10⟩) s ∧ HasSkew (fPDF (4:ℕ) (10:ℕ)) s :=
  (C152_f_skewness_partial f_ex).1 (by norm_num)
example : (∃ s, Returns (FDist.skewness ⟨4, 5⟩) s ∧ s < 0) ∧ ∀ s, ¬ HasSkew (fPDF (4:ℕ) (5:ℕ)) s :=
  have := C152_f_skewness_violated f_ex5 (by norm_num) (by norm_num); ⟨this.2.2 rfl, this.2.1⟩
example : ∃ κ k, HasKurt (fPDF (4:ℕ) (10:ℕ)) κ ∧ Returns (FDist.excessKurtosis ⟨4, 10⟩) k ∧ k < κ - 3 :=
  (C153_f_kurtosis_violated f_ex).1 (by norm_num)
example : ∃ e c, HasEntropy (fPDF (4:ℕ) (10:ℕ)) e ∧ (FDist.shannonEntropy ⟨4, 10⟩).Is c ∧ e < c := by
  obtain ⟨e, c, h1, h2, _, h3, _⟩ := C154_f_entropy_violated f_ex
  exact ⟨e, c, h1, h2, h3 (by norm_num)⟩
example : ∃ μ v, Returns (FDist.variance ⟨4, 10⟩) v ∧ HasMeanVar (fPDF (4:ℕ) (10:ℕ)) μ v :=
  (C151_f_dist f_ex).2.2.2.2.2.2.2.2.1 (by norm_num)
end
end Rstat
