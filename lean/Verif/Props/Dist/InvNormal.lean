import Verif.Model.Dist.NormalFamily
import Verif.Lemmas.Dist.InvNormal2
import Verif.Lemmas.DistBase
import Verif.Props.Normal

/-! Properties C177–C182: the inverse Gaussian law. -/
set_option linter.unusedSectionVars false
namespace Rstat
open F64 Consts Spec MeasureTheory ProbabilityTheory Set

theorem InvNormal.new_ok {a b : F64} {d : InvNormal} :
    InvNormal.new a b = .ok d ↔ 0 < a ∧ 0 < b ∧ d = ⟨a, b, UvNormal.standard⟩ := by
  simp only [InvNormal.new, exc_bind_ok, Shape.new_ok]
  constructor
  · rintro ⟨_, ⟨h1, rfl⟩, _, ⟨h2, rfl⟩, h⟩; exact ⟨h1, h2, by cases h; rfl⟩
  · rintro ⟨h1, h2, rfl⟩; exact ⟨_, ⟨h1, rfl⟩, _, ⟨h2, rfl⟩, rfl⟩

section
variable [FP] [FP.Exact] {mu lambda : F64} {μ l : ℝ} {d : InvNormal}

/-- C177: the accepted parameters are the positive ones; on `x > 0`, `pdf` is the inverse Gaussian density; mean, variance and
skewness are the law's, and `modes` is its unique maximiser. The other constructors agree with `new`. -/
theorem C177_invNormal (h : InvNormal.new mu lambda = .ok d) (hm : mu.Is μ) (hl : lambda.Is l) :
    0 < μ ∧ 0 < l ∧ Computes d.pdf (invNormalPDF μ l) (Ioi 0) ∧
    IsCDF (invNormalCDF μ l) ∧ IsDensityOf (invNormalPDF μ l) (invNormalCDF μ l) ∧
    (∃ m v, d.mean.Is m ∧ d.variance.Is v ∧ HasMeanVar (invNormalPDF μ l) m v) ∧
    (∃ s, d.skewness.Is s ∧ HasSkew (invNormalPDF μ l) s) ∧
    (∃ x r, d.modes = [x] ∧ x.Is r ∧ ∀ y, IsMode (invNormalPDF μ l) y ↔ y = r) ∧
    d = InvNormal.newUnchecked mu lambda ∧ d = InvNormal.ofParams d.params ∧ d.params = (mu, lambda) := by
  obtain ⟨h0, h1, rfl⟩ := InvNormal.new_ok.1 h
  have m0 : 0 < μ := pos_of_lt h0 hm
  have l0 : 0 < l := pos_of_lt h1 hl
  have hp := Real.pi_pos
  obtain ⟨mv, sk, -⟩ := invNormal_moments m0 l0
  refine ⟨m0, l0, fun x t ht hx => ?_, (invNormal_density m0 l0).1, (invNormal_density m0 l0).2,
    ⟨_, _, hm, ?_, mv⟩, ⟨_, ?_, sk⟩, ?_, rfl, rfl, rfl⟩
  · have ht : 0 < t := ht
    unfold InvNormal.pdf invNormalPDF; dsimp only
    rw [if_neg (not_le.2 ht)]
    have iz : (lambda / PI_2 / x / x / x).sqrt.Is (Real.sqrt (l / (Real.pi * 2) / t / t / t)) :=
      ((((hl.div PI_2_is (by positivity)).div hx ht.ne').div hx ht.ne').div hx ht.ne').sqrt (by positivity)
    have ie : ((-lambda * (x - mu) * (x - mu)) / 2 / mu / mu / x).exp.Is (Real.exp (-l * (t - μ) * (t - μ) / 2 / μ / μ / t)) := by
      fev
    refine (iz.mul ie).congr ?_
    congr 2
    · field_simp
    · field_simp
  · exact Is.congr (((hm.mul hm).mul hm).div hl l0.ne') (by ring)
  · exact Is.congr ((Is.num 3).mul ((hm.div hl l0.ne').sqrt (by positivity))) (by norm_num)
  · have ir : (mu * ((1 + 9 * mu * mu / 4 / lambda / lambda).sqrt - 3 * mu / 2 / lambda)).Is
        (μ * (Real.sqrt (1 + 9 * μ * μ / 4 / l / l) - 3 * μ / 2 / l)) := by
      have i1 : (1 + 9 * mu * mu / 4 / lambda / lambda).Is (1 + 9 * μ * μ / 4 / l / l) := by fev
      have i2 : (3 * mu / 2 / lambda).Is (3 * μ / 2 / l) := by fev
      exact hm.mul ((i1.sqrt (by positivity)).sub i2)
    refine ⟨_, _, rfl, ir, fun y => ?_⟩
    set q := Real.sqrt (1 + 9 * μ * μ / 4 / l / l) with hq
    have hq2 : q ^ 2 = 1 + 9 * μ * μ / 4 / l / l := Real.sq_sqrt (by positivity)
    have hq0 : 0 ≤ q := Real.sqrt_nonneg _
    have hgt : 3 * μ / 2 / l < q := by
      refine lt_of_pow_lt_pow_left₀ 2 hq0 ?_
      rw [hq2]
      have : (3 * μ / 2 / l) ^ 2 = 9 * μ * μ / 4 / l / l := by field_simp; ring
      linarith
    have hx0 : 0 < μ * (q - 3 * μ / 2 / l) := mul_pos m0 (by linarith)
    have hr : l * (μ * (q - 3 * μ / 2 / l)) ^ 2 + 3 * μ ^ 2 * (μ * (q - 3 * μ / 2 / l)) = l * μ ^ 2 := by
      have : l * (μ * (q - 3 * μ / 2 / l)) ^ 2 + 3 * μ ^ 2 * (μ * (q - 3 * μ / 2 / l)) =
          l * μ ^ 2 * q ^ 2 - 9 * μ ^ 4 / (4 * l) := by field_simp; ring
      rw [this, hq2]; field_simp; ring
    constructor
    · intro hy
      by_contra hne
      exact absurd (hy (μ * (q - 3 * μ / 2 / l))) (not_le.2 (invNormal_mode m0 l0 hx0 hr hne))
    · rintro rfl z
      by_cases hz : z = μ * (q - 3 * μ / 2 / l)
      · rw [hz]
      · exact (invNormal_mode m0 l0 hx0 hr hz).le

/-- C178, violated: at every `x > 0`, `cdf(x)` exceeds the probability of `(0, x]` (the second normal probability is taken at
the wrong argument); for every `x ≥ mu` it exceeds 1 and is not a probability. -/
theorem C178_invNormal_cdf_violated (h : InvNormal.new mu lambda = .ok d) (hm : mu.Is μ) (hl : lambda.Is l) {x : F64} {t : ℝ}
    (hx : x.Is t) (ht : 0 < t) :
    (∃ r, (d.cdf x).val.Is r ∧ invNormalCDF μ l t < r) ∧ (μ ≤ t → ¬ (d.cdf x).isValid) := by
  obtain ⟨h0, h1, rfl⟩ := InvNormal.new_ok.1 h
  have m0 : 0 < μ := pos_of_lt h0 hm
  have l0 : 0 < l := pos_of_lt h1 hl
  have i0 : ((UvNormal.standard).mu).Is 0 := Is.zero
  have i1 : ((UvNormal.standard).Sigma).Is 1 := Is.one
  have ia : ((lambda / x).sqrt * (x / mu - 1)).Is (Real.sqrt (l / t) * (t / μ - 1)) :=
    ((hl.div hx ht.ne').sqrt (by positivity)).mul ((hx.div hm m0.ne').sub Is.one)
  have ic : ∀ z : F64, ∀ r : ℝ, z.Is r → ((UvNormal.standard).cdf z).val.Is (Phi r) := fun z r hz =>
    (normal_cdf_is i0 i1 one_pos hz).congr (by simp)
  have ie : (2 * lambda / mu).exp.Is (Real.exp (2 * l / μ)) := by fev
  set a := Real.sqrt (l / t) * (t / μ - 1) with ha
  have iv : (InvNormal.cdf ⟨mu, lambda, UvNormal.standard⟩ x).val.Is (Phi a + Real.exp (2 * l / μ) * Phi a) :=
    (ic _ _ ia).add (ie.mul (ic _ _ ia))
  have hq : 0 < Real.sqrt (l / t) := Real.sqrt_pos.2 (by positivity)
  refine ⟨⟨_, iv, ?_⟩, fun hge hv => ?_⟩
  · unfold invNormalCDF
    rw [if_neg (not_le.2 ht)]
    have hlt : -(Real.sqrt (l / t) * (t / μ + 1)) < a := by
      have : 0 < Real.sqrt (l / t) * (t / μ) := by positivity
      rw [ha]; nlinarith
    have := mul_lt_mul_of_pos_left (Phi_strictMono hlt) (Real.exp_pos (2 * l / μ))
    linarith
  · have ha0 : 0 ≤ a := mul_nonneg hq.le (by have := (one_le_div m0).2 hge; linarith)
    have h2 : 1 / 2 ≤ Phi a := by rw [← Phi_zero]; exact Phi_strictMono.monotone ha0
    have h3 : 1 < Real.exp (2 * l / μ) := Real.one_lt_exp_iff.2 (by positivity)
    have := (iv.le_iff Is.one).1 hv.1
    nlinarith

/-- C179, violated: `excess_kurtosis` is `16 mu/lambda` where the law's is `15 mu/lambda`, so it and `kurtosis` are wrong for all
parameters. -/
theorem C179_invNormal_kurtosis_violated (h : InvNormal.new mu lambda = .ok d) (hm : mu.Is μ) (hl : lambda.Is l) :
    ∃ k, HasKurt (invNormalPDF μ l) k ∧ ¬ d.kurtosis.Is k ∧ ¬ d.excessKurtosis.Is (k - 3) := by
  obtain ⟨h0, h1, rfl⟩ := InvNormal.new_ok.1 h
  have m0 : 0 < μ := pos_of_lt h0 hm
  have l0 : 0 < l := pos_of_lt h1 hl
  have ie : (InvNormal.excessKurtosis ⟨mu, lambda, UvNormal.standard⟩).Is (16 * μ / l) := by
    unfold InvNormal.excessKurtosis; fev
  have ik : (InvNormal.kurtosis ⟨mu, lambda, UvNormal.standard⟩).Is (16 * μ / l + 3) :=
    (ie.add (Is.num 3)).congr (by norm_num)
  have hp : 0 < μ / l := by positivity
  refine ⟨_, (invNormal_moments m0 l0).2.2, fun hk => ?_, fun hk => ?_⟩
  · have := hk.eq ik
    rw [mul_div_assoc, mul_div_assoc] at this; linarith
  · have := hk.eq ie
    rw [mul_div_assoc, mul_div_assoc] at this; linarith

/-- C180, violated: `shannon_entropy` is the entropy of the normal law with the same variance, strictly above the entropy of
the inverse Gaussian law for all parameters. -/
theorem C180_invNormal_entropy_violated (h : InvNormal.new mu lambda = .ok d) (hm : mu.Is μ) (hl : lambda.Is l) :
    ∃ H r, HasEntropy (invNormalPDF μ l) H ∧ d.shannonEntropy.Is r ∧ H < r := by
  obtain ⟨h0, h1, rfl⟩ := InvNormal.new_ok.1 h
  have m0 : 0 < μ := pos_of_lt h0 hm
  have l0 : 0 < l := pos_of_lt h1 hl
  have hp := Real.pi_pos
  have he := Real.exp_pos 1
  have iv : (InvNormal.variance ⟨mu, lambda, UvNormal.standard⟩).Is (μ * μ * μ / l) := by unfold InvNormal.variance; fev
  have hlog := ig_mean_log m0 l0
  refine ⟨_, _, invNormal_entropy m0 l0, ((PI_E_2_is.mul iv).ln (by positivity)).div (Is.num 2) (by norm_num), ?_⟩
  have e : Real.log (Real.pi * Real.exp 1 * 2 * (μ * μ * μ / l)) = Real.log (2 * Real.pi * Real.exp 1 / l) + 3 * Real.log μ := by
    rw [show Real.pi * Real.exp 1 * 2 * (μ * μ * μ / l) = 2 * Real.pi * Real.exp 1 / l * μ ^ 3 by field_simp,
      Real.log_mul (by positivity) (by positivity), Real.log_pow]
    push_cast; ring
  rw [e]
  linarith

/-- C181: `sample` draws a standard normal and then a uniform variate and returns a value `T ν z` of them; if the two draws are
independent, `ν` standard normal and `z` uniform on the unit interval, the result has exactly the inverse Gaussian law. -/
theorem C181_invNormal_sample (h : InvNormal.new mu lambda = .ok d) (hm : mu.Is μ) (hl : lambda.Is l) :
    ∃ T : ℝ → ℝ → ℝ, Measurable (fun p : ℝ × ℝ => T p.1 p.2) ∧
      (∀ (σ : Type) (g : NormalRng σ) (u : σ → F64 × σ) (s : σ) (ν z : ℝ), (g.draw s).1.Is ν → (u (g.draw s).2).1.Is z →
        ∃ y, d.sample g u s = (.ok y, (u (g.draw s).2).2) ∧ y.Is (T ν z)) ∧
      ((gaussianReal 0 1).prod (volume.restrict (Icc (0:ℝ) 1))).map (fun p => T p.1 p.2) = Law (invNormalPDF μ l) := by
  obtain ⟨h0, h1, rfl⟩ := InvNormal.new_ok.1 h
  have m0 : 0 < μ := pos_of_lt h0 hm
  have l0 : 0 < l := pos_of_lt h1 hl
  refine ⟨igOut μ l, igOut_measurable, fun σ g u s ν z hν hz => ?_, ?_⟩
  · have hs : (UvNormal.sample UvNormal.standard g s) = (.ok (0 + F64.sqrt 1 * (g.draw s).1), (g.draw s).2) := by
      unfold UvNormal.sample
      have hf : (UvNormal.standard.Sigma.sqrt).isFinite := by
        show (F64.sqrt 1).isFinite
        rw [((Is.one : (1 : F64).Is 1).sqrt zero_le_one).eq_fin (by simp)]; trivial
      rw [if_pos hf]; rfl
    have hn : (0 + F64.sqrt 1 * (g.draw s).1).Is ν :=
      (Is.zero.add ((Is.one.sqrt zero_le_one).mul hν)).congr (by simp)
    refine ⟨_, by unfold InvNormal.sample; rw [show InvNormal.stdNorm ⟨mu, lambda, UvNormal.standard⟩ = UvNormal.standard from rfl, hs], ?_⟩
    generalize (0 + F64.sqrt 1 * (g.draw s).1) = nu at hn
    generalize (u (g.draw s).2).1 = zz at hz
    unfold InvNormal.sampleFrom igOut; dsimp only
    have iX : (mu + mu * mu * (nu * nu) / 2 / lambda -
        mu / 2 / lambda * (4 * mu * lambda * (nu * nu) + mu * mu * (nu * nu) * (nu * nu)).sqrt).Is (igX μ l ν) := by
      unfold igX
      have i1 : (mu + mu * mu * (nu * nu) / 2 / lambda).Is (μ + μ * μ * (ν * ν) / 2 / l) := by fev
      have i2 : (4 * mu * lambda * (nu * nu) + mu * mu * (nu * nu) * (nu * nu)).Is
          (4 * μ * l * (ν * ν) + μ * μ * (ν * ν) * (ν * ν)) := by fev
      have i3 : (mu / 2 / lambda).Is (μ / 2 / l) := by fev
      exact i1.sub (i3.mul (i2.sqrt (by have := mul_self_nonneg ν; positivity)))
    have hX := igX_pos m0 l0 ν
    generalize (mu + mu * mu * (nu * nu) / 2 / lambda -
        mu / 2 / lambda * (4 * mu * lambda * (nu * nu) + mu * mu * (nu * nu) * (nu * nu)).sqrt) = X at iX
    have ip : (mu / (mu + X)).Is (μ / (μ + igX μ l ν)) := hm.div (hm.add iX) (by positivity)
    by_cases hlt : z < μ / (μ + igX μ l ν)
    · rw [if_pos hlt, if_pos ((hz.lt_iff ip).2 hlt)]; exact iX
    · rw [if_neg hlt, if_neg (fun hh => hlt ((hz.lt_iff ip).1 hh))]
      exact (hm.mul hm).div iX hX.ne'
  · rw [← invNormal_sample_law m0 l0, Measure.restrict_congr_set Ico_ae_eq_Icc]

/-- C182, violated: outside the support the density is 0, but `pdf(x)` is NaN for every `x < 0`. -/
theorem C182_invNormal_negative_violated (h : InvNormal.new mu lambda = .ok d) (hm : mu.Is μ) (hl : lambda.Is l) {x : F64} {t : ℝ}
    (hx : x.Is t) (ht : t < 0) : invNormalPDF μ l t = 0 ∧ d.pdf x = nan := by
  obtain ⟨h0, h1, rfl⟩ := InvNormal.new_ok.1 h
  have l0 : 0 < l := pos_of_lt h1 hl
  have hp := Real.pi_pos
  refine ⟨if_pos ht.le, ?_⟩
  unfold InvNormal.pdf; dsimp only
  have iz : (lambda / PI_2 / x / x / x).Is (l / (Real.pi * 2) / t / t / t) :=
    (((hl.div PI_2_is (by positivity)).div hx ht.ne).div hx ht.ne).div hx ht.ne
  have hneg : l / (Real.pi * 2) / t / t / t < 0 := div_neg_of_pos_of_neg (by
    rw [div_div (l / (Real.pi * 2))]; exact div_pos (by positivity) (mul_pos_of_neg_of_neg ht ht)) ht
  rw [sqrt_neg_nan iz hneg, nan_mul]
end

section
attribute [local instance] exactFP exactFP_exact
/-- the hypotheses of C177–C182 are met, e.g. by mu = 2, lambda = 3 -/
example : ∃ d, InvNormal.new (F64.fin 2) (F64.fin 3) = .ok d ∧ (F64.fin 2).Is 2 ∧ (F64.fin 3).Is 3 :=
  ⟨_, InvNormal.new_ok.2 ⟨lt_of_pos two_pos (Is.fin 2), lt_of_pos three_pos (Is.fin 3), rfl⟩, Is.fin _, Is.fin _⟩
end
end Rstat
