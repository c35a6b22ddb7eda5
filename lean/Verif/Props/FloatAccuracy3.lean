import Verif.Props.FloatAccuracy2

/-! C251: counterexamples in binary64 and instances. -/
set_option linter.unusedSectionVars false
namespace Rstat
open F64 Spec Consts
section
open B64
attribute [local instance] binary64 binary64_lawful B64.libm B64.specialFns B64.accurate

theorem isF64_of {r : ℝ} (h : rnd r = r) (hh : |r| < 2 ^ 1024) : IsF64 (fin r) := fun t ht => by
  rw [← (Is.fin r).eq ht]; exact ⟨h, fun hc => absurd hc (not_le.2 hh)⟩
theorem isF64_pow (n : ℕ) (h : n ≤ 1023) : IsF64 (fin (2 ^ n)) := by
  refine isF64_of ?_ ?_
  · have := rnd_two_pow (e := (n:ℤ)) (by omega); rwa [zpow_natCast] at this
  · rw [abs_of_pos (by positivity)]; exact pow_lt_pow_right₀ (by norm_num) (by omega)
theorem isF64_neg {r : ℝ} (h : IsF64 (fin r)) : IsF64 (fin (-r)) := by
  obtain ⟨h1, h2⟩ := h r (Is.fin r)
  refine isF64_of (by rw [B64.rnd_neg]; exact congrArg _ h1) ?_
  rw [abs_neg]; exact not_le.1 h2
theorem isF64_pow_inv (n : ℕ) (h : n ≤ 1074) : IsF64 (fin (1 / 2 ^ n)) := by
  have e : (1:ℝ) / 2 ^ n = 2 ^ (-(n:ℤ)) := by rw [zpow_neg, zpow_natCast, one_div]
  refine isF64_of ?_ ?_
  · rw [e]; exact rnd_two_pow (by omega)
  · rw [abs_of_pos (by positivity)]
    refine lt_of_le_of_lt (b := 1) ?_ (one_lt_pow₀ (by norm_num) (by norm_num))
    rw [div_le_one (by positivity)]; exact one_le_pow₀ (by norm_num)

theorem big_sub : fin (2 ^ 1023) - fin (-2 ^ 1023) = pinf := by
  have := add_ext (Is.fin ((2:ℝ) ^ 1023)) (Is.fin (-(2:ℝ) ^ 1023)).neg
  rw [round_pinf (by rw [neg_neg, pow_succ]; linarith)] at this
  change fin (2 ^ 1023) + -fin (-2 ^ 1023) = pinf
  cases h : (fin (2 ^ 1023) + -fin (-2 ^ 1023) : F64) <;> rw [h] at this <;> simp_all
theorem big_z : (fin (2 ^ 1023) - fin (-2 ^ 1023)) / fin (2 ^ 1023) = pinf := by rw [big_sub, pinf_div_const (by positivity)]
theorem big_ratio : ((2:ℝ) ^ 1023 - -2 ^ 1023) / 2 ^ 1023 = 2 := by
  have : (0:ℝ) < 2 ^ 1023 := by positivity
  generalize (2:ℝ) ^ 1023 = M at *
  field_simp; norm_num

theorem exp_two_le : Real.exp 2 ≤ 9 := by
  have h := Real.exp_one_lt_d9
  have h0 := Real.exp_pos 1
  rw [show (2:ℝ) = 1 + 1 by norm_num, Real.exp_add]; nlinarith

/-- C251 (violation): where `x - mu` overflows the logistic distribution function is 1 although the real one is at most 0.9 -/
theorem C251_logistic_violated : ∃ d, Logistic.new (fin (-2 ^ 1023)) (fin (2 ^ 1023)) = .ok d ∧ IsF64 (fin (-2 ^ 1023)) ∧ IsF64 (fin (2 ^ 1023)) ∧
    ¬ AccurateCDF d.cdf (logisticCDF (-2 ^ 1023) (2 ^ 1023)) Set.univ (1 / 11) := by
  refine ⟨_, Logistic.new_ok.2 ⟨lt_of_pos (by positivity) (Is.fin _), rfl⟩, isF64_neg (isF64_pow _ le_rfl), isF64_pow _ le_rfl, fun H => ?_⟩
  obtain ⟨p, hp, he⟩ := H (fin (2 ^ 1023)) (2 ^ 1023) (isF64_pow _ le_rfl) (Is.fin _) trivial
  have e1 : (1 / (1 + F64.exp (-((fin (2 ^ 1023) - fin (-2 ^ 1023)) / fin (2 ^ 1023))))).Is p := hp
  rw [big_z] at e1
  have e2 : ((1 : F64) / (1 + fin 0)).Is 1 := by
    have h1 := one_add_zero (Is.fin 0)
    have := div_is Is.one h1 one_ne_zero (by rw [div_one, F64.rnd_one]; exact not_huge_one)
    rwa [div_one, F64.rnd_one] at this
  have hp1 : p = 1 := e1.eq e2
  unfold logisticCDF at he
  rw [neg_div, big_ratio, hp1, Real.exp_neg] at he
  have h9 := exp_two_le
  have h0 := Real.exp_pos 2
  have h2 : (1:ℝ) / 9 ≤ (Real.exp 2)⁻¹ := by rw [← one_div]; exact one_div_le_one_div_of_le h0 h9
  have h3 : 1 / (1 + (Real.exp 2)⁻¹) ≤ 9 / 10 := by
    rw [div_le_iff₀ (by positivity)]; linarith
  have := (abs_le.1 he).2
  linarith

/-- C251 (violation): the same for the Gumbel distribution function -/
theorem C251_gumbel_violated : ∃ d, Gumbel.new (fin (-2 ^ 1023)) (fin (2 ^ 1023)) = .ok d ∧ IsF64 (fin (-2 ^ 1023)) ∧ IsF64 (fin (2 ^ 1023)) ∧
    ¬ AccurateCDF d.cdf (gumbelCDF (-2 ^ 1023) (2 ^ 1023)) Set.univ (1 / 11) := by
  refine ⟨_, Gumbel.new_ok.2 ⟨lt_of_pos (by positivity) (Is.fin _), rfl⟩, isF64_neg (isF64_pow _ le_rfl), isF64_pow _ le_rfl, fun H => ?_⟩
  obtain ⟨p, hp, he⟩ := H (fin (2 ^ 1023)) (2 ^ 1023) (isF64_pow _ le_rfl) (Is.fin _) trivial
  have e1 : (F64.exp (-(F64.exp (-((fin (2 ^ 1023) - fin (-2 ^ 1023)) / fin (2 ^ 1023)))))).Is p := hp
  rw [big_z] at e1
  change (F64.exp (-(fin 0))).Is p at e1
  rw [exp_zero ((Is.fin 0).neg.congr neg_zero)] at e1
  have hp1 : p = 1 := e1.eq (Is.fin 1)
  unfold gumbelCDF at he
  rw [neg_div, big_ratio, hp1, Real.exp_neg 2] at he
  have h9 := exp_two_le
  have h0 := Real.exp_pos 2
  have h2 : (1:ℝ) / 9 ≤ (Real.exp 2)⁻¹ := by rw [← one_div]; exact one_div_le_one_div_of_le h0 h9
  have h3 : Real.exp (-(Real.exp 2)⁻¹) ≤ 9 / 10 := by
    rw [Real.exp_neg, inv_le_comm₀ (Real.exp_pos _) (by norm_num)]
    have := Real.add_one_le_exp (Real.exp 2)⁻¹
    norm_num; linarith
  have := (abs_le.1 he).2
  linarith

/-- C251 (violation): the same for the Cauchy distribution function -/
theorem C251_cauchy_violated : ∃ d, Cauchy.new (fin (-2 ^ 1023)) (fin (2 ^ 1023)) = .ok d ∧ IsF64 (fin (-2 ^ 1023)) ∧ IsF64 (fin (2 ^ 1023)) ∧
    ¬ AccurateCDF d.cdf (cauchyCDF (-2 ^ 1023) (2 ^ 1023)) Set.univ (1 / 11) := by
  refine ⟨_, Cauchy.new_ok.2 ⟨lt_of_pos (by positivity) (Is.fin _), rfl⟩, isF64_neg (isF64_pow _ le_rfl), isF64_pow _ le_rfl, fun H => ?_⟩
  obtain ⟨p, hp, he⟩ := H (fin (2 ^ 1023)) (2 ^ 1023) (isF64_pow _ le_rfl) (Is.fin _) trivial
  have e1 : (ONE_OVER_PI * ((fin (2 ^ 1023) - fin (-2 ^ 1023)) / fin (2 ^ 1023)).atan + fin (1 / 2)).Is p := hp
  rw [big_z] at e1
  have h3 := Real.pi_gt_three
  have hat : Within (pinf.atan) (Real.pi / 2) (1 / 2 ^ 51) :=
    Within.round (ε := 0) (M := 2) (by simp) (by rw [abs_of_pos (by positivity)]; linarith [Real.pi_le_four]) (by norm_num) (by norm_num)
  have hm := Within.mul (ρ := 1 / 2 ^ 48) (1 / 3) 2 one_over_pi_within hat
    (by rw [abs_of_pos (by positivity)]; exact one_div_le_one_div_of_le (by norm_num) h3.le)
    (by rw [abs_of_pos (by positivity)]; linarith [Real.pi_le_four]) (by norm_num) (by norm_num)
  have e2 : 1 / Real.pi * (Real.pi / 2) = 1 / 2 := by field_simp
  rw [e2] at hm
  obtain ⟨q, hq, hq2⟩ := Within.add (ρ := 1 / 2 ^ 47) 1 hm (Within.exact (Is.fin (1 / 2))) (by norm_num) (by norm_num) (by norm_num)
  rw [← e1.eq hq] at hq2
  unfold cauchyCDF at he
  rw [big_ratio] at he
  have ha : Real.arctan 2 = Real.pi / 2 - Real.arctan (1 / 2) := by
    have := Real.arctan_inv_of_pos (x := 2) (by norm_num)
    rw [one_div]; linarith
  have hb : Real.pi / 4 ≤ 2 * Real.arctan (1 / 2) := by
    rw [Real.two_mul_arctan (by norm_num) (by norm_num), ← Real.arctan_one]
    exact Real.arctan_mono (by norm_num)
  have hc : Real.arctan 2 / Real.pi ≤ 3 / 8 := by
    rw [div_le_iff₀ (by linarith)]; linarith
  have h5 := (abs_le.1 he).2
  have h6 := (abs_le.1 hq2).1
  norm_num at *; linarith

/-- C251 (violation): a Pareto law with scale 2^-500 and shape 2^-20 has its distribution function at 2^600 equal to 1, because
`xm / x` underflows to zero; the real one is below 1/2 -/
theorem C251_pareto_violated : ∃ d, Pareto.new (fin (1 / 2 ^ 500)) (fin (1 / 2 ^ 20)) = .ok d ∧ IsF64 (fin (1 / 2 ^ 500)) ∧ IsF64 (fin (1 / 2 ^ 20)) ∧
    ¬ AccurateCDF d.cdf (paretoCDF (1 / 2 ^ 500) (1 / 2 ^ 20)) Set.univ (1 / 2) := by
  refine ⟨_, Pareto.new_ok.2 ⟨lt_of_pos (by positivity) (Is.fin _), rfl⟩, isF64_pow_inv _ (by norm_num), isF64_pow_inv _ (by norm_num), fun H => ?_⟩
  obtain ⟨p, hp, he⟩ := H (fin (2 ^ 600)) (2 ^ 600) (isF64_pow _ (by norm_num)) (Is.fin _) trivial
  have e1 : ((1 : F64) - (fin (1 / 2 ^ 500) / fin (2 ^ 600)).powf (fin (1 / 2 ^ 20))).Is p := hp
  have hq : (1:ℝ) / 2 ^ 500 / 2 ^ 600 = 1 / 2 ^ 1100 := by rw [div_div, ← pow_add]
  have hz : (fin (1 / 2 ^ 500) / fin (2 ^ 600)).Is 0 := by
    have h1 : rnd (1 / 2 ^ 500 / 2 ^ 600) = 0 := by
      rw [hq]
      have h := rnd_eq_sub (x := 1 / 2 ^ 1100) 0 (by positivity)
        (by rw [one_div, ← zpow_natCast, ← zpow_neg]; exact zpow_lt_zpow_right₀ (by norm_num) (by norm_num))
        (by
          rw [one_div, ← zpow_natCast, ← zpow_neg, ← zpow_sub₀ (by norm_num), Int.cast_zero, sub_zero, abs_of_pos (by positivity)]
          norm_num)
      simpa using h
    have := div_is (Is.fin ((1:ℝ) / 2 ^ 500)) (Is.fin (2 ^ 600)) (by positivity) (by
      show ¬ binary64.huge (rnd (1 / 2 ^ 500 / 2 ^ 600))
      rw [h1]; exact not_huge_small (by norm_num))
    exact this.congr h1
  have h0 := powf_zero_pos hz (Is.fin ((1:ℝ) / 2 ^ 20)) (by positivity)
  have e2 : ((1 : F64) - (fin (1 / 2 ^ 500) / fin (2 ^ 600)).powf (fin (1 / 2 ^ 20))).Is 1 := by
    have := sub_is Is.one h0 (by rw [sub_zero, F64.rnd_one]; exact not_huge_one)
    rwa [sub_zero, F64.rnd_one] at this
  rw [e1.eq e2] at he
  unfold paretoCDF at he
  have hle : ¬ (2:ℝ) ^ 600 ≤ 1 / 2 ^ 500 := by
    rw [not_le, div_lt_iff₀ (by positivity), ← pow_add]; exact one_lt_pow₀ (by norm_num) (by norm_num)
  rw [if_neg hle, hq, sub_sub_cancel] at he
  have h2 : (1:ℝ) / 2 < (1 / 2 ^ 1100) ^ ((1:ℝ) / 2 ^ 20) := by
    rw [one_div ((2:ℝ) ^ 1100), ← Real.rpow_natCast, ← Real.rpow_neg (by norm_num), ← Real.rpow_mul (by norm_num),
      show (1:ℝ) / 2 = 2 ^ (-1 : ℝ) by rw [Real.rpow_neg_one]; norm_num]
    exact Real.rpow_lt_rpow_of_exponent_lt (by norm_num) (by push_cast; norm_num)
  have := (le_abs_self _).trans he
  linarith

/-- C251 (violation): a Weibull law with scale 2^500 and shape 2^-20 has its distribution function at 2^-600 equal to 0, because
`x / lambda` underflows to zero; the real one is above 1/2 -/
theorem C251_weibull_violated : ∃ d, Weibull.new (fin (2 ^ 500)) (fin (1 / 2 ^ 20)) = .ok d ∧ IsF64 (fin (2 ^ 500)) ∧ IsF64 (fin (1 / 2 ^ 20)) ∧
    ¬ AccurateCDF d.cdf (weibullCDF (2 ^ 500) (1 / 2 ^ 20)) Set.univ (1 / 3) := by
  refine ⟨_, Weibull.new_ok.2 ⟨lt_of_pos (by positivity) (Is.fin _), lt_of_pos (by positivity) (Is.fin _), rfl⟩, isF64_pow _ (by norm_num),
    isF64_pow_inv _ (by norm_num), fun H => ?_⟩
  obtain ⟨p, hp, he⟩ := H (fin (1 / 2 ^ 600)) (1 / 2 ^ 600) (isF64_pow_inv _ (by norm_num)) (Is.fin _) trivial
  have hx0 : (0 : F64) ≤ fin (1 / 2 ^ 600) := (Is.zero.le_iff (Is.fin _)).2 (by positivity)
  unfold Weibull.cdf at hp
  rw [if_pos hx0] at hp
  have e1 : ((1 : F64) - F64.exp (-((fin (1 / 2 ^ 600) / fin (2 ^ 500)).powf (fin (1 / 2 ^ 20))))).Is p := hp
  have hq : (1:ℝ) / 2 ^ 600 / 2 ^ 500 = 1 / 2 ^ 1100 := by rw [div_div, ← pow_add]
  have hz : (fin (1 / 2 ^ 600) / fin (2 ^ 500)).Is 0 := by
    have h1 : rnd (1 / 2 ^ 600 / 2 ^ 500) = 0 := by
      rw [hq]
      have h := rnd_eq_sub (x := 1 / 2 ^ 1100) 0 (by positivity)
        (by rw [one_div, ← zpow_natCast, ← zpow_neg]; exact zpow_lt_zpow_right₀ (by norm_num) (by norm_num))
        (by
          rw [one_div, ← zpow_natCast, ← zpow_neg, ← zpow_sub₀ (by norm_num), Int.cast_zero, sub_zero, abs_of_pos (by positivity)]
          norm_num)
      simpa using h
    have := div_is (Is.fin ((1:ℝ) / 2 ^ 600)) (Is.fin (2 ^ 500)) (by positivity) (by
      show ¬ binary64.huge (rnd (1 / 2 ^ 600 / 2 ^ 500))
      rw [h1]; exact not_huge_small (by norm_num))
    exact this.congr h1
  have h0 := powf_zero_pos hz (Is.fin ((1:ℝ) / 2 ^ 20)) (by positivity)
  rw [exp_zero (h0.neg.congr neg_zero)] at e1
  have e2 : ((1 : F64) - fin 1).Is 0 := by
    have := sub_is Is.one (Is.fin 1) (by rw [sub_self, F64.rnd_zero]; exact not_huge_zero)
    rwa [sub_self, F64.rnd_zero] at this
  rw [e1.eq e2] at he
  unfold weibullCDF at he
  have hle : ¬ (1:ℝ) / 2 ^ 600 ≤ 0 := not_le.2 (by positivity)
  rw [if_neg hle, hq] at he
  have h2 : (1:ℝ) / 2 < (1 / 2 ^ 1100) ^ ((1:ℝ) / 2 ^ 20) := by
    rw [one_div ((2:ℝ) ^ 1100), ← Real.rpow_natCast, ← Real.rpow_neg (by norm_num), ← Real.rpow_mul (by norm_num),
      show (1:ℝ) / 2 = 2 ^ (-1 : ℝ) by rw [Real.rpow_neg_one]; norm_num]
    exact Real.rpow_lt_rpow_of_exponent_lt (by norm_num) (by push_cast; norm_num)
  generalize ((1:ℝ) / 2 ^ 1100) ^ ((1:ℝ) / 2 ^ 20) = w at *
  have h4 : Real.exp (-w) < 2 / 3 := by
    rw [Real.exp_neg, inv_lt_comm₀ (Real.exp_pos _) (by norm_num)]
    have := Real.add_one_le_exp w
    norm_num; linarith
  rw [zero_sub, abs_neg] at he
  have := (le_abs_self _).trans he
  linarith

/-- C251 (violation): a log-normal law with location `rnd (ln 2)` and log-scale variance 2^-120: the distribution function at 2 is 1/2 because
`ln 2` is rounded, the real one is above 3/4 -/
theorem C251_lognormal_violated : ∃ m : ℝ, IsF64 (fin m) ∧ ∃ d, LogNormal.new (fin m) (fin (1 / 2 ^ 120)) = .ok d ∧
    ¬ AccurateCDF d.cdf (logNormalCDF m (1 / 2 ^ 120)) (Set.Ioi 0) (1 / 4) := by
  have hr : rnd (Real.log 2) = 6243314768165359 / 2 ^ 53 := by
    obtain ⟨t1, t2⟩ := log_two_tight
    have := rnd_eq (x := Real.log 2) 6243314768165359 (-53) (by norm_num) (by norm_num; linarith) (by norm_num; linarith)
      (by rw [abs_lt]; norm_num; constructor <;> linarith)
    rw [this]; norm_num
  set m : ℝ := 6243314768165359 / 2 ^ 53 with hm
  have fm : IsF64 (fin m) := isF64_of (by rw [← hr]; exact B64.rnd_idem _) (lt1024 (by rw [hm, abs_of_pos (by positivity)]; norm_num))
  refine ⟨m, fm, _, LogNormal.new_ok.2 ⟨lt_of_pos (by positivity) (Is.fin _), rfl⟩, fun H => ?_⟩
  obtain ⟨p, hp, he⟩ := H (fin 2) 2 (by have := isF64_pow 1 (by norm_num); rwa [pow_one] at this) (Is.fin _) (by norm_num)
  have e1 : F64.ln (fin 2) = fin m := by
    unfold F64.ln F64.logWith
    dsimp only
    rw [if_neg (by norm_num), if_neg (by norm_num)]
    exact round_eq hr (by rw [hm, abs_of_pos (by positivity)]; norm_num) (by rw [hm]; norm_num)
  have e2 : (((fin m - fin m) / (fin (1 / 2 ^ 120)).sqrt).norm).Is p := by
    have : (UvNormal.cdf ⟨fin m, fin (1 / 2 ^ 120)⟩ (F64.ln (fin 2))).val.Is p := hp
    rw [e1] at this; exact this
  have hs : (fin (1 / 2 ^ 120)).sqrt = fin (1 / 2 ^ 60) := by
    unfold F64.sqrt
    dsimp only
    rw [if_neg (not_lt.2 (by positivity))]
    have : √((1:ℝ) / 2 ^ 120) = 1 / 2 ^ 60 := by
      rw [Real.sqrt_eq_iff_mul_self_eq (by positivity) (by positivity)]; norm_num
    rw [this]
    exact round_eq ((isF64_pow_inv 60 (by norm_num)) _ (Is.fin _)).1 (by rw [abs_of_pos (by positivity)]; norm_num) (by positivity)
  rw [hs] at e2
  have hz : ((fin m - fin m) / fin (1 / 2 ^ 60)).Is 0 := by
    have h1 : (fin m - fin m).Is 0 := by
      have := sub_is (Is.fin m) (Is.fin m) (by rw [sub_self, F64.rnd_zero]; exact not_huge_zero)
      rwa [sub_self, F64.rnd_zero] at this
    have := div_is h1 (Is.fin ((1:ℝ) / 2 ^ 60)) (by positivity) (by rw [zero_div, F64.rnd_zero]; exact not_huge_zero)
    rwa [zero_div, F64.rnd_zero] at this
  obtain ⟨q, hq, hq2⟩ := FP.Accurate.norm_acc hz
  rw [(e2.eq hq : p = q)] at he
  rw [Phi_zero] at hq2
  have h2 : logNormalCDF m (1 / 2 ^ 120) 2 = Phi ((Real.log 2 - m) * 2 ^ 60) := by
    unfold logNormalCDF
    rw [if_neg (by norm_num)]
    congr 1
    have : √((1:ℝ) / 2 ^ 120) = 1 / 2 ^ 60 := by
      rw [Real.sqrt_eq_iff_mul_self_eq (by positivity) (by positivity)]; norm_num
    rw [this]; field_simp
  rw [h2] at he
  have h5 : 10 ≤ (Real.log 2 - m) * 2 ^ 60 := by
    obtain ⟨t1, t2⟩ := log_two_tight
    rw [hm]; norm_num at *; linarith
  have h6 := phi_tail (t := -((Real.log 2 - m) * 2 ^ 60)) (by linarith)
  rw [Phi_neg, neg_div_neg_eq] at h6
  have h7 : 1 / ((Real.log 2 - m) * 2 ^ 60) ≤ 1 / 10 := one_div_le_one_div_of_le (by norm_num) h5
  generalize Phi ((Real.log 2 - m) * 2 ^ 60) = w at *
  have := (abs_le.1 he).1
  have := (abs_le.1 hq2).2
  norm_num at *; linarith

/-! ### the hypotheses are met: concrete laws in binary64 -/
theorem isF64_small (n : ℕ) (h : n ≤ 1000) : IsF64 (fin n) := by
  refine isF64_of (F64.rnd_natCast n (le_trans h (by norm_num))) (lt1024 ?_)
  rw [abs_of_nonneg (by positivity)]
  exact le_trans (by exact_mod_cast h : (n:ℝ) ≤ 1000) (by norm_num)
theorem small_in (r m : ℝ) (hr : |r| ≤ 2 ^ 60) (hm : |m| ≤ 2 ^ 60) : ¬ FP.huge (FP.rnd (r - m)) :=
  sub_no_overflow (hr.trans (pow_le_pow_right₀ (by norm_num) (by norm_num))) (hm.trans (pow_le_pow_right₀ (by norm_num) (by norm_num)))

example : ∃ d p, Exponential.new (fin (3 / 2)) = .ok d ∧ (d.cdf (fin (7:ℕ))).val.Is p ∧ |p - (1 - Real.exp (-(3 / 2 * 7)))| ≤ 1 / 2 ^ 47 := by
  have hd : Exponential.new (fin (3 / 2)) = .ok ⟨fin (3 / 2)⟩ := Exponential.new_ok.2 ⟨lt_of_pos (by norm_num) (Is.fin _), rfl⟩
  obtain ⟨p, hp, he⟩ := C251_exponential hd (Is.fin _) (fin (7:ℕ)) 7 (isF64_small 7 (by norm_num)) (Is.fin _) (by norm_num)
  refine ⟨_, p, hd, hp, ?_⟩
  unfold expCDF at he
  rwa [if_neg (by norm_num)] at he

example : ∃ d p, Logistic.new (fin (3:ℕ)) (fin 5) = .ok d ∧ (d.cdf (fin (7:ℕ))).val.Is p ∧ |p - 1 / (1 + Real.exp (-(7 - 3) / 5))| ≤ 1 / 2 ^ 47 := by
  have hd : Logistic.new (fin (3:ℕ)) (fin 5) = .ok ⟨fin (3:ℕ), fin 5⟩ := Logistic.new_ok.2 ⟨lt_of_pos (by norm_num) (Is.fin _), rfl⟩
  obtain ⟨p, hp, he⟩ := C251_logistic_partial hd (isF64_small 3 (by norm_num)) (Is.fin _) (Is.fin _) (fin (7:ℕ)) 7 (isF64_small 7 (by norm_num)) (Is.fin _)
    (small_in _ _ (by norm_num) (by norm_num))
  exact ⟨_, p, hd, hp, he⟩

example : ∃ d p, Gumbel.new (fin (3:ℕ)) (fin 5) = .ok d ∧ (d.cdf (fin (7:ℕ))).val.Is p ∧ |p - Real.exp (-Real.exp (-(7 - 3) / 5))| ≤ 1 / 2 ^ 47 := by
  have hd : Gumbel.new (fin (3:ℕ)) (fin 5) = .ok ⟨fin (3:ℕ), fin 5⟩ := Gumbel.new_ok.2 ⟨lt_of_pos (by norm_num) (Is.fin _), rfl⟩
  obtain ⟨p, hp, he⟩ := C251_gumbel_partial hd (isF64_small 3 (by norm_num)) (Is.fin _) (Is.fin _) (fin (7:ℕ)) 7 (isF64_small 7 (by norm_num)) (Is.fin _)
    (small_in _ _ (by norm_num) (by norm_num))
  exact ⟨_, p, hd, hp, he⟩

example : ∃ d p, Cauchy.new (fin (3:ℕ)) (fin 4) = .ok d ∧ (d.cdf (fin (7:ℕ))).val.Is p ∧ |p - 3 / 4| ≤ 1 / 2 ^ 47 := by
  have hd : Cauchy.new (fin (3:ℕ)) (fin 4) = .ok ⟨fin (3:ℕ), fin 4⟩ := Cauchy.new_ok.2 ⟨lt_of_pos (by norm_num) (Is.fin _), rfl⟩
  obtain ⟨p, hp, he⟩ := C251_cauchy_partial hd (isF64_small 3 (by norm_num)) (Is.fin _) (Is.fin _) (fin (7:ℕ)) 7 (isF64_small 7 (by norm_num)) (Is.fin _)
    (small_in _ _ (by norm_num) (by norm_num))
  refine ⟨_, p, hd, hp, ?_⟩
  have : cauchyCDF ((3:ℕ):ℝ) 4 7 = 3 / 4 := by
    unfold cauchyCDF
    rw [show ((7:ℝ) - (3:ℕ)) / 4 = 1 by norm_num, Real.arctan_one]
    have := Real.pi_pos
    field_simp; norm_num
  rwa [this] at he

example : ∃ d p, UvNormal.new (fin (3:ℕ)) (fin (5:ℕ)) = .ok d ∧ (d.cdf (fin (7:ℕ))).val.Is p ∧ |p - Phi ((7 - 3) / √5)| ≤ 1 / 2 ^ 47 := by
  have hd : UvNormal.new (fin (3:ℕ)) (fin (5:ℕ)) = .ok ⟨fin (3:ℕ), fin (5:ℕ)⟩ := UvNormal.new_ok.2 ⟨lt_of_pos (by norm_num) (Is.fin _), rfl⟩
  obtain ⟨p, hp, he⟩ := C251_normal hd (isF64_small 3 (by norm_num)) (Is.fin _) (isF64_small 5 (by norm_num)) (Is.fin _) (fin (7:ℕ)) 7
    (isF64_small 7 (by norm_num)) (Is.fin _) trivial
  exact ⟨_, p, hd, hp, he⟩

example : ∃ d p, Frechet.new (fin (5 / 2)) = .ok d ∧ (d.cdf (fin (7:ℕ))).val.Is p ∧ |p - Real.exp (-7 ^ (-(5:ℝ) / 2))| ≤ 1 / 2 ^ 47 := by
  have hd : Frechet.new (fin (5 / 2)) = .ok ⟨fin (5 / 2)⟩ := Frechet.new_ok.2 ⟨lt_of_pos (by norm_num) (Is.fin _), rfl⟩
  obtain ⟨p, hp, he⟩ := C251_frechet hd (Is.fin _) (fin (7:ℕ)) 7 (isF64_small 7 (by norm_num)) (Is.fin _) (by norm_num)
  refine ⟨_, p, hd, hp, ?_⟩
  unfold frechetCDF at he
  rwa [if_neg (by norm_num), ← neg_div] at he

example : ∃ d p, Pareto.new (fin 2) (fin 3) = .ok d ∧ (d.cdf (fin (6:ℕ))).val.Is p ∧ |p - 26 / 27| ≤ 11 / 2 ^ 51 := by
  have hd : Pareto.new (fin 2) (fin 3) = .ok ⟨fin 2, fin 3⟩ := Pareto.new_ok.2 ⟨lt_of_pos (by norm_num) (Is.fin _), rfl⟩
  obtain ⟨p, hp, he⟩ := C251_pareto_partial hd (Is.fin _) (by norm_num) (Is.fin _) (fin (6:ℕ)) 6 (isF64_small 6 (by norm_num)) (Is.fin _)
    ⟨by norm_num, by
      calc (6:ℝ) / 2 ≤ 2 ^ 2 := by norm_num
        _ ≤ 2 ^ 900 := pow_le_pow_right₀ (by norm_num) (by norm_num)⟩
  refine ⟨_, p, hd, hp, ?_⟩
  have : paretoCDF 2 3 6 = 26 / 27 := by
    unfold paretoCDF
    rw [if_neg (by norm_num), show (3:ℝ) = ((3:ℕ):ℝ) by norm_num, Real.rpow_natCast]; norm_num
  rw [this] at he
  norm_num at he ⊢; exact he

example : ∃ d p, Weibull.new (fin 2) (fin 3) = .ok d ∧ (d.cdf (fin (6:ℕ))).val.Is p ∧ |p - (1 - Real.exp (-27))| ≤ 3 / 2 ^ 51 + 1 / 2 ^ 47 := by
  have hd : Weibull.new (fin 2) (fin 3) = .ok ⟨fin 2, fin 3⟩ :=
    Weibull.new_ok.2 ⟨lt_of_pos (by norm_num) (Is.fin _), lt_of_pos (by norm_num) (Is.fin _), rfl⟩
  obtain ⟨p, hp, he⟩ := C251_weibull_partial hd (Is.fin _) (Is.fin _) (fin (6:ℕ)) 6 (isF64_small 6 (by norm_num)) (Is.fin _)
    (Or.inr ⟨by norm_num, by
      rw [div_le_iff₀ (by positivity)]
      exact le_trans (by norm_num) (mul_le_mul_of_nonneg_left (one_le_pow₀ (by norm_num)) (by norm_num)), by
      calc (6:ℝ) / 2 ≤ 2 ^ 2 := by norm_num
        _ ≤ 2 ^ 1000 := pow_le_pow_right₀ (by norm_num) (by norm_num)⟩)
  refine ⟨_, p, hd, hp, ?_⟩
  have : weibullCDF 2 3 6 = 1 - Real.exp (-27) := by
    unfold weibullCDF
    rw [if_neg (by norm_num), show (3:ℝ) = ((3:ℕ):ℝ) by norm_num, Real.rpow_natCast]; norm_num
  rwa [this] at he

example : ∃ d p, LogNormal.new (fin (3:ℕ)) (fin (4:ℕ)) = .ok d ∧ (d.cdf (fin (2:ℕ))).val.Is p ∧
    |p - Phi ((Real.log 2 - 3) / √4)| ≤ 1 / 2 ^ 47 + 1 / 2 ^ 51 := by
  have hd : LogNormal.new (fin (3:ℕ)) (fin (4:ℕ)) = .ok ⟨⟨fin (3:ℕ), fin (4:ℕ)⟩⟩ := LogNormal.new_ok.2 ⟨lt_of_pos (by norm_num) (Is.fin _), rfl⟩
  have l1 := Real.log_two_lt_d9
  have l0 := Real.log_two_gt_d9
  have s4 : √(((4:ℕ):ℝ)) = 2 := by rw [show (((4:ℕ):ℝ)) = 2 ^ 2 by norm_num]; exact Real.sqrt_sq (by norm_num)
  obtain ⟨p, hp, he⟩ := C251_lognormal_partial (K := 1) hd (isF64_small 3 (by norm_num)) (Is.fin _) (isF64_small 4 (by norm_num)) (Is.fin _)
    (fin (2:ℕ)) 2 (isF64_small 2 (by norm_num)) (Is.fin _) ⟨by norm_num, by
      rw [abs_of_pos (by linarith)]; exact le_trans l1.le (by norm_num), by
      rw [s4, abs_of_pos (by linarith)]; linarith⟩
  refine ⟨_, p, hd, hp, ?_⟩
  unfold logNormalCDF at he
  rwa [if_neg (by norm_num)] at he

end

end Rstat
