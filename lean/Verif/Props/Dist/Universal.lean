import Verif.Props.Dist.Chi
import Verif.Props.Dist.Binomial
import Verif.Props.Dist.Poisson
import Verif.Props.Dist.Beta
import Verif.Lemmas.ExpIrrational

/-! Wider versions of violations first proved at one parameter value: C133/C136 (medians of the Chi family), C122 (median of
the binomial law), C125 (entropy of the Poisson law), C147 (negative beta density). -/
set_option linter.unusedSectionVars false
namespace Rstat
open F64 Consts Spec MeasureTheory ProbabilityTheory Set

/-- the regularised incomplete gamma function at a positive integer is a finite Poisson sum -/
theorem gammaP_nat (n : ℕ) (y : ℝ) :
    gammaP ((n + 1 : ℕ) : ℝ) y = 1 - Real.exp (-y) * ∑ j ∈ Finset.range (n + 1), y ^ j / (j.factorial : ℝ) := by
  have hd : ∀ x : ℝ, HasDerivAt
      (fun x => -(n.factorial : ℝ) * (Real.exp (-x) * ∑ j ∈ Finset.range (n + 1), x ^ j / (j.factorial : ℝ)))
      (x ^ n * Real.exp (-x)) x := by
    intro x
    have hs : ∀ n : ℕ, HasDerivAt (fun x : ℝ => ∑ j ∈ Finset.range (n + 1), x ^ j / (j.factorial : ℝ))
        (∑ j ∈ Finset.range n, x ^ j / (j.factorial : ℝ)) x := by
      intro n
      induction n with
      | zero => simpa using hasDerivAt_const x (1:ℝ)
      | succ n ih =>
        have e : (fun x : ℝ => ∑ j ∈ Finset.range (n + 1 + 1), x ^ j / (j.factorial : ℝ)) =
            fun x => (∑ j ∈ Finset.range (n + 1), x ^ j / (j.factorial : ℝ)) + x ^ (n + 1) / ((n + 1).factorial : ℝ) := by
          funext x; rw [Finset.sum_range_succ]
        rw [e, Finset.sum_range_succ _ n]
        refine ih.add (((hasDerivAt_pow (n + 1) x).div_const _).congr_deriv ?_)
        rw [Nat.factorial_succ]
        have : (n.factorial : ℝ) ≠ 0 := by exact_mod_cast n.factorial_ne_zero
        have : ((n:ℝ) + 1) ≠ 0 := by positivity
        push_cast; field_simp
    have he : HasDerivAt (fun x : ℝ => Real.exp (-x)) (-Real.exp (-x)) x := by
      simpa using (hasDerivAt_neg x).exp
    refine ((he.mul (hs n)).const_mul (-(n.factorial : ℝ))).congr_deriv ?_
    rw [Finset.sum_range_succ]
    have : (n.factorial : ℝ) ≠ 0 := by exact_mod_cast n.factorial_ne_zero
    field_simp; ring
  have hi := intervalIntegral.integral_eq_sub_of_hasDerivAt (a := 0) (b := y) (fun x _ => hd x)
    (Continuous.intervalIntegrable (by fun_prop) _ _)
  have h0 : (∑ j ∈ Finset.range (n + 1), (0:ℝ) ^ j / (j.factorial : ℝ)) = 1 := by
    rw [Finset.sum_range_succ']; simp
  have hf : (n.factorial : ℝ) ≠ 0 := by exact_mod_cast n.factorial_ne_zero
  unfold gammaP
  have e : (fun t : ℝ => t ^ (((n + 1 : ℕ) : ℝ) - 1) * Real.exp (-t)) = fun t => t ^ n * Real.exp (-t) := by
    funext t; rw [← Real.rpow_natCast]; congr 2; push_cast; ring
  rw [e, hi, h0]
  have : Real.Gamma ((n + 1 : ℕ) : ℝ) = n.factorial := by push_cast; exact Real.Gamma_nat_eq_factorial n
  rw [this]
  simp only [neg_zero, Real.exp_zero]
  field_simp; ring

/-- the incomplete gamma function at an integer and a positive rational is never 1/2 -/
theorem gammaP_nat_ne_half (n : ℕ) {q : ℚ} (hq : 0 < q) : gammaP ((n + 1 : ℕ) : ℝ) (q : ℝ) ≠ 1 / 2 := by
  intro h
  rw [gammaP_nat] at h
  have hs : (0:ℚ) < ∑ j ∈ Finset.range (n + 1), q ^ j / (j.factorial : ℚ) :=
    Finset.sum_pos (fun j _ => by positivity) ⟨0, by simp⟩
  refine exp_rat_ne_rat (q := -q) (r := 1 / 2 / ∑ j ∈ Finset.range (n + 1), q ^ j / (j.factorial : ℚ)) (by linarith) ?_
  have hs' : (0:ℝ) < ∑ j ∈ Finset.range (n + 1), (q:ℝ) ^ j / (j.factorial : ℝ) := by exact_mod_cast hs
  push_cast
  rw [eq_div_iff hs'.ne']; linarith

/-- the Wilson–Hilferty value `k(1 - 2/(9k))³` as a rational number -/
theorem wilson_rat {k : ℕ} (hk : 0 < k) : ∃ q : ℚ, 0 < q ∧ (q : ℝ) = (k : ℝ) * (1 - 2 / 9 / k) ^ 3 / 2 := by
  refine ⟨(k : ℚ) * (1 - 2 / 9 / k) ^ 3 / 2, ?_, by push_cast; ring⟩
  have hk' : (1:ℚ) ≤ k := by exact_mod_cast hk
  have : (2:ℚ) / 9 / k ≤ 2 / 9 := div_le_self (by norm_num) hk'
  have : 0 < 1 - (2:ℚ) / 9 / k := by linarith
  positivity

section
variable [FP] [FP.Exact] {k : ℕ} {d : ChiSq} {c : Chi}

/-- C133 (violated): for every even number of degrees of freedom `median()` returns `k(1 - 2/(9k))³`, and that is never the
median: the distribution function there is not 1/2. -/
theorem C133_chisq_median_even_violated (h : ChiSq.new k = .ok d) (he : Even k) :
    ∃ m, d.median.Is m ∧ m = k * (1 - 2 / 9 / k) ^ 3 ∧ gammaCDF (k / 2) (1 / 2) m ≠ 1 / 2 := by
  obtain ⟨h0, rfl⟩ := ChiSq.new_ok.1 h
  have hk : (k : ℝ) ≠ 0 := by exact_mod_cast h0.ne'
  have hkf : (ChiSq.kf ⟨k⟩).Is k := Is.ofNat k
  refine ⟨_, hkf.mul ((Is.one.sub (((Is.num 2).div (Is.num 9) (by norm_num)).div hkf hk)).powi 3), rfl, ?_⟩
  obtain ⟨q, hq, e⟩ := wilson_rat h0
  obtain ⟨n, rfl⟩ := he
  obtain ⟨n, rfl⟩ : ∃ j, n = j + 1 := ⟨n - 1, by omega⟩
  have hq' : (0:ℝ) < q := by exact_mod_cast hq
  rw [gammaCDF_pos_eq (by linarith), show (((n + 1 + (n + 1) : ℕ) : ℝ) / 2) = ((n + 1 : ℕ) : ℝ) by push_cast; ring,
    show (1 / 2 : ℝ) * (((n + 1 + (n + 1) : ℕ) : ℝ) * (1 - 2 / 9 / ((n + 1 + (n + 1) : ℕ) : ℝ)) ^ 3) = q by rw [e]; ring]
  exact gammaP_nat_ne_half n hq

/-- C136 (violated): for every even number of degrees of freedom `median()` of the Chi law returns the square root of
`k(1 - 2/(9k))³`, and that is never the median. -/
theorem C136_chi_median_even_violated (h : Chi.new k = .ok c) (he : Even k) :
    ∃ m, c.median.Is m ∧ m = Real.sqrt (k * (1 - 2 / 9 / k) ^ 3) ∧ chiCDF k m ≠ 1 / 2 := by
  obtain ⟨h0, rfl⟩ := Chi.new_ok.1 h
  have hk : (k : ℝ) ≠ 0 := by exact_mod_cast h0.ne'
  have hkf : (Chi.kf ⟨k⟩).Is k := Is.ofNat k
  obtain ⟨q, hq, e⟩ := wilson_rat h0
  have hq' : (0:ℝ) < q := by exact_mod_cast hq
  have hp : 0 < (k : ℝ) * (1 - 2 / 9 / k) ^ 3 := by linarith
  refine ⟨_, (hkf.mul ((Is.one.sub (((Is.num 2).div (Is.num 9) (by norm_num)).div hkf hk)).powi 3)).sqrt hp.le, rfl, ?_⟩
  rw [chiCDF, if_neg (not_le.2 (Real.sqrt_pos.2 hp)), Real.sq_sqrt hp.le]
  obtain ⟨n, rfl⟩ := he
  obtain ⟨n, rfl⟩ : ∃ j, n = j + 1 := ⟨n - 1, by omega⟩
  rw [← e, show (((n + 1 + (n + 1) : ℕ) : ℝ) / 2) = ((n + 1 : ℕ) : ℝ) by push_cast; ring]
  exact gammaP_nat_ne_half n hq
end

section
variable [FP] [FP.Exact] {n : ℕ} {P : Probability} {d : Binomial} {p : ℝ}

/-- C122 (violated): whenever the mean `np` rounds to 1 although an outcome of 0 is more likely than not, the returned median 1 is
not a median. -/
theorem C122_binomial_median_wide_violated (h : Binomial.new n P = .ok d) (hp : P.val.Is p) (h1 : 1 / 2 ≤ n * p)
    (h2 : n * p < 3 / 2) (hz : 1 / 2 < (1 - p) ^ n) :
    d.median.Is 1 ∧ ¬ IsMedianD (binPMF n p) (fun k => (k : ℝ)) 1 := by
  obtain ⟨hp0, hp1⟩ := Binomial.range h hp
  obtain ⟨_, rfl⟩ := Binomial.new_ok.1 h
  constructor
  · have hm : (Binomial.mean ⟨n, P, P.not⟩).Is (n * p) := Is.congr (hp.mul (Is.ofNat n)) (by ring)
    unfold Binomial.median
    rw [hm.eq_fin (by linarith)]
    unfold F64.roundHalf
    have hc : (0:ℝ) ≤ n * p := by linarith
    simp only [hc, if_true]
    have : ⌊(n:ℝ) * p + 1 / 2⌋ = 1 := by rw [Int.floor_eq_iff]; norm_num; constructor <;> linarith
    rw [this]
    exact Is.congr (Is.fin _) (by norm_num)
  · rintro ⟨a, b, _, hb, _, h3⟩
    have h0 : HasSum (Set.indicator {x : ℕ | (1:ℝ) ≤ x} (binPMF n p)) (1 - (1 - p) ^ n) := by
      have hs := (by simpa using bin_raw0 (p := p) n : HasSum (fun k => binPMF n p k) 1).sub (hasSum_ite_eq 0 ((1 - p) ^ n))
      refine hs.congr_fun ?_
      intro k
      by_cases hk : k = 0
      · subst hk; simp [binPMF]
      · have : (1:ℝ) ≤ k := by exact_mod_cast Nat.one_le_iff_ne_zero.2 hk
        simp [Set.indicator, hk]
    rw [hb.unique h0] at h3
    linarith

/-- C122 (violated): for every number of trials n ≥ 2 some success probability makes `median()` wrong: at `p = 1/(2n)` it returns
1, but more than half of the mass is at 0. -/
theorem C122_binomial_median_every_n_violated (hn : 2 ≤ n) (h : Binomial.new n P = .ok d) (hp : P.val.Is (1 / (2 * n))) :
    d.median.Is 1 ∧ ¬ IsMedianD (binPMF n (1 / (2 * n))) (fun k => (k : ℝ)) 1 := by
  have hn' : (2:ℝ) ≤ n := by exact_mod_cast hn
  have e : (n : ℝ) * (1 / (2 * n)) = 1 / 2 := by field_simp
  refine C122_binomial_median_wide_violated h hp (by rw [e]) (by rw [e]; norm_num) ?_
  have hs : (1 / (2 * n) : ℝ) ≤ 1 / 4 := by
    apply div_le_div_of_nonneg_left <;> linarith
  obtain ⟨m, rfl⟩ : ∃ m, n = m + 2 := ⟨n - 2, by omega⟩
  have hx0 : (0:ℝ) < 1 / (2 * ((m + 2 : ℕ) : ℝ)) := by positivity
  generalize 1 / (2 * ((m + 2 : ℕ) : ℝ)) = x at *
  have hb := one_add_mul_le_pow (a := -x) (by linarith) (m + 1)
  rw [← sub_eq_add_neg] at hb
  rw [show m + 2 = (m + 1) + 1 by ring, pow_succ]
  push_cast at hb e
  have hm : (0:ℝ) ≤ m := by positivity
  have h3 : (1 + ((m:ℝ) + 1) * -x) * (1 - x) ≤ (1 - x) ^ (m + 1) * (1 - x) :=
    mul_le_mul_of_nonneg_right hb (by linarith)
  have h4 : (1 + ((m:ℝ) + 1) * -x) * (1 - x) = 1 - (m + 2) * x + (m + 1) * x ^ 2 := by ring
  have h5 : 0 < ((m:ℝ) + 1) * x ^ 2 := by positivity
  linarith
end

section
variable [FP] [FP.Exact] {a : F64} {d : Poisson} {l : ℝ}

/-- C125 (violated): for every rate up to 2/5 `shannon_entropy()` is negative, which no Shannon entropy is. -/
theorem C125_poisson_entropy_wide_violated (h : Poisson.new a = .ok d) (ha : a.Is l) (hr : l ≤ 2 / 5) :
    ∃ e, d.shannonEntropy.Is e ∧ e < 0 ∧ ∀ H, HasEntropyD (poisPMF l) H → 0 ≤ H := by
  have hl := Poisson.pos h ha
  have hd := Poisson.lambda_is h ha
  have hpi := Real.pi_lt_d2
  have he1 := Real.exp_one_gt_d9
  have hpos : 0 < Real.pi * Real.exp 1 * 2 * l := by have := Real.pi_pos; positivity
  refine ⟨Real.log (Real.pi * Real.exp 1 * 2 * l) / 2 - 1 / 12 / l - 1 / 24 / l / l - 19 / 360 / l / l / l, ?_, ?_, ?_⟩
  · unfold Poisson.shannonEntropy
    exact (((((PI_E_2_is.mul hd).ln hpos).div (Is.num 2) (by norm_num)).sub (ONE_TWELTH_is.div hd hl.ne')).sub
      ((ONE_TWENTY_FOURTH_is.div hd hl.ne').div hd hl.ne')).sub
      (((NINETEEN_OVER_360_is.div hd hl.ne').div hd hl.ne').div hd hl.ne')
  · have h1 : Real.log (Real.pi * Real.exp 1 * 2 * l) ≤ 2 := by
      rw [Real.log_le_iff_le_exp hpos]
      have he0 := Real.exp_pos 1
      have hp0 := Real.pi_pos
      have : Real.exp 2 = Real.exp 1 * Real.exp 1 := by rw [← Real.exp_add]; norm_num
      rw [this]
      have : Real.pi * Real.exp 1 * 2 * l = Real.exp 1 * (Real.pi * 2 * l) := by ring
      rw [this]
      have h3 : Real.pi * 2 * l ≤ Real.exp 1 := by nlinarith
      nlinarith
    have hi : 5 / 2 ≤ 1 / l := by
      have := one_div_le_one_div_of_le hl hr
      norm_num at this ⊢; exact this
    have e : 1 / 12 / l + 1 / 24 / l / l + 19 / 360 / l / l / l =
        1 / 12 * (1 / l) + 1 / 24 * (1 / l) ^ 2 + 19 / 360 * (1 / l) ^ 3 := by field_simp
    generalize 1 / l = u at hi e
    have h2 : 25 / 4 ≤ u ^ 2 := by nlinarith
    have h3 : 125 / 8 ≤ u ^ 3 := by nlinarith
    linarith
  · intro H hH
    refine hH.nonneg fun k => ?_
    have h0 := pois_nonneg hl.le k
    have h1 := le_hasSum (pois_one (l := l)) k fun i _ => pois_nonneg hl.le i
    have := mul_nonpos_of_nonneg_of_nonpos h0 (Real.log_nonpos h0 h1)
    linarith
end

section
variable [FP] [FP.Exact] {a b : F64} {d : BetaDist} {α : ℝ}

/-- C147 (violated): a density cannot be negative, but whenever `β` is an even integer (any `α`) `pdf` is negative at every point
above the support. -/
theorem C147_beta_pdf_negative_even_violated (h : BetaDist.new a b = .ok d) (ha : a.Is α) {j : ℕ} (hb : b.Is (2 * j + 2))
    {x : F64} {t : ℝ} (hx : x.Is t) (ht : 1 < t) : ∃ p, (d.pdf x).Is p ∧ p < 0 := by
  obtain ⟨h0', h1', rfl⟩ := BetaDist.new_ok.1 h
  have hα : 0 < α := pos_of_lt h0' ha
  have hβ : (0:ℝ) < 2 * j + 2 := by positivity
  have hB := Beta_pos hα hβ
  have h1 : (b - 1).Is (2 * j + 1) := (hb.sub Is.one).congr (by ring)
  have hne : (2 * (j:ℝ) + 1) ≠ 0 := by positivity
  have h2 := ((powf_neg_base (Is.one.sub hx) h1 (by linarith) hne).2.1 ⟨2 * j + 1, by push_cast; ring⟩
    ⟨2 * j + 1, by push_cast; ring, ⟨j, rfl⟩⟩)
  have ht0 : 0 < t := by linarith
  refine ⟨t ^ (α - 1) * -(-(1 - t)) ^ (2 * (j:ℝ) + 1) / Beta α (2 * j + 2), ?_, ?_⟩
  · unfold BetaDist.pdf; dsimp only
    exact ((Is.powf hx (ha.sub Is.one) ht0).mul h2).div (ha.beta hb hα hβ) hB.ne'
  · have : 0 < (-(1 - t)) ^ (2 * (j:ℝ) + 1) := Real.rpow_pos_of_pos (by linarith) _
    refine div_neg_of_neg_of_pos (mul_neg_of_pos_of_neg (by positivity) (by linarith)) hB
end

/-! Concrete cases meet the hypotheses. -/
section
attribute [local instance] exactFP exactFP_exact
example : ∃ m, (ChiSq.median ⟨10⟩).Is m ∧ gammaCDF ((10:ℕ) / 2) (1 / 2) m ≠ 1 / 2 := by
  obtain ⟨m, h1, _, h2⟩ := C133_chisq_median_even_violated (k := 10) (ChiSq.new_ok.2 ⟨by norm_num, rfl⟩) (by decide)
  exact ⟨m, h1, h2⟩
example : ∃ m, (Chi.median ⟨6⟩).Is m ∧ chiCDF (6:ℕ) m ≠ 1 / 2 := by
  obtain ⟨m, h1, _, h2⟩ := C136_chi_median_even_violated (k := 6) (Chi.new_ok.2 ⟨by norm_num, rfl⟩) (by decide)
  exact ⟨m, h1, h2⟩
example : ∃ d, Binomial.new 7 ⟨fin (1 / (2 * (7:ℕ)))⟩ = .ok d ∧ d.median.Is 1 ∧
    ¬ IsMedianD (binPMF 7 (1 / (2 * (7:ℕ)))) (fun k => (k : ℝ)) 1 := by
  obtain ⟨d, hd⟩ := bin_example 7 (p := 1 / (2 * (7:ℕ))) (by norm_num) (by norm_num)
  exact ⟨d, hd, C122_binomial_median_every_n_violated (by norm_num) hd (Is.fin _)⟩
example : ∃ d e, Poisson.new (fin (2 / 5)) = .ok d ∧ d.shannonEntropy.Is e ∧ e < 0 := by
  obtain ⟨d, hd⟩ := pois_example (2 / 5) (by norm_num)
  obtain ⟨e, h1, h2, _⟩ := C125_poisson_entropy_wide_violated hd (Is.fin _) le_rfl
  exact ⟨d, e, hd, h1, h2⟩
example : ∃ p, (BetaDist.pdf ⟨fin 3, fin 4⟩ (fin 2)).Is p ∧ p < 0 :=
  C147_beta_pdf_negative_even_violated (j := 1)
    (BetaDist.new_ok.2 ⟨fin_lt_fin.2 (by norm_num), fin_lt_fin.2 (by norm_num), rfl⟩) (Is.fin 3)
    ((Is.fin 4).congr (by norm_num)) (Is.fin 2) (by norm_num)
end
end Rstat
