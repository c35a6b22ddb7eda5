import Verif.Model.Dist.GammaFamily
import Verif.Lemmas.Dist.Gamma2
import Verif.Lemmas.DistBase
import Verif.Lemmas.MaxMin
import Verif.Spec.Families
import Verif.Lemmas.Dist.Exponential

/-! Properties C96–C97, C128–C131: the Gamma law. -/
set_option linter.unusedSectionVars false
namespace Rstat
open F64 Consts Spec MeasureTheory ProbabilityTheory Set

theorem Gamma.new_ok [FP] {a b : F64} {d : Gamma} : Gamma.new a b = .ok d ↔ 0 < a ∧ 0 < b ∧ d = ⟨a, b⟩ := by
  simp only [Gamma.new, exc_bind_ok, Shape.new_ok]
  constructor
  · rintro ⟨_, ⟨h0, rfl⟩, _, ⟨h1, rfl⟩, h⟩; exact ⟨h0, h1, by cases h; rfl⟩
  · rintro ⟨h0, h1, rfl⟩; exact ⟨_, ⟨h0, rfl⟩, _, ⟨h1, rfl⟩, rfl⟩

theorem gammaCDF_pos_eq {a r x : ℝ} (hx : 0 < x) : gammaCDF a r x = gammaP a (r * x) := by
  rw [gammaCDF, if_neg (not_le.2 hx)]

section
variable [FP] [FP.Exact] {a b : F64} {α β : ℝ} {d : Gamma}

theorem Gamma.pdf_is (ha : a.Is α) (hb : b.Is β) (hα : 0 < α) (hβ : 0 < β) :
    Computes (Gamma.pdf ⟨a, b⟩) (gammaPDFReal α β) (Ioi 0) := by
  intro x t ht hx
  have ht : 0 < t := ht
  have hG := Real.Gamma_pos_of_pos hα
  unfold Gamma.pdf
  rw [gammaPDF_pos_eq ht]
  refine Is.congr (r := β ^ α * t ^ (α - 1) * Real.exp (-β * t) / Real.Gamma α) (by fev) ?_
  rw [neg_mul]; ring

theorem Gamma.cdf_is (ha : a.Is α) (hb : b.Is β) (hα : 0 < α) (hβ : 0 < β) {x : F64} {t : ℝ} (ht : 0 < t) (hx : x.Is t) :
    (Gamma.cdf ⟨a, b⟩ x).val.Is (gammaCDF α β t / Real.Gamma α) := by
  have hG := Real.Gamma_pos_of_pos hα
  unfold Gamma.cdf Probability.newUnchecked
  rw [gammaCDF_pos_eq ht]
  exact (Is.gammainc ha (hb.mul hx) hα (by positivity)).div (ha.gamma hα) hG.ne'

/-- C96: the accepted parameters are the positive ones; `pdf` is the Gamma(shape α, rate β) density on the support
(0, ∞), which is a probability density; the moments of the first four orders, the entropy and (for α ≥ 1) the mode are
those of that density; for α < 1 there is no mode and `modes()` panics. -/
theorem C96_gamma (h : Gamma.new a b = .ok d) (ha : a.Is α) (hb : b.Is β) :
    0 < α ∧ 0 < β ∧
    Computes d.pdf (gammaPDFReal α β) (Ioi 0) ∧
    IsDensityOf (gammaPDFReal α β) (gammaCDF α β) ∧ Law (gammaPDFReal α β) = gammaMeasure α β ∧
    (∃ m v, d.mean.Is m ∧ d.variance.Is v ∧ HasMeanVar (gammaPDFReal α β) m v) ∧
    (∃ s, d.skewness.Is s ∧ HasSkew (gammaPDFReal α β) s) ∧
    (∃ κ, d.kurtosis.Is κ ∧ d.excessKurtosis.Is (κ - 3) ∧ HasKurt (gammaPDFReal α β) κ) ∧
    (∃ e, d.shannonEntropy.Is e ∧ HasEntropy (gammaPDFReal α β) e) ∧
    (1 ≤ α → ∃ x m, d.modes = .ok [x] ∧ x.Is m ∧ IsMode (gammaPDFReal α β) m) ∧
    (α < 1 → d.modes = .error .undefined) := by
  obtain ⟨h0, h1, rfl⟩ := Gamma.new_ok.1 h
  have hα : 0 < α := pos_of_lt h0 ha
  have hβ : 0 < β := pos_of_lt h1 hb
  have hs : 0 < Real.sqrt α := Real.sqrt_pos.2 hα
  have hG := Real.Gamma_pos_of_pos hα
  obtain ⟨m2, m3, m4⟩ := gamma_moments hα hβ
  have hex : (Gamma.excessKurtosis ⟨a, b⟩).Is (6 / α) := by unfold Gamma.excessKurtosis; fev
  refine ⟨hα, hβ, Gamma.pdf_is ha hb hα hβ, (gamma_density hα hβ).2, rfl, ⟨_, _, ?_, ?_, m2⟩, ⟨_, ?_, m3⟩, ⟨_, ?_, ?_, m4⟩,
    ⟨_, ?_, gamma_entropy hα hβ⟩, fun h1 => ⟨(a - 1) / b, _, ?_, ?_, gamma_mode h1 hβ⟩, fun h1 => ?_⟩
  · unfold Gamma.mean; fev
  · unfold Gamma.variance
    refine Is.congr (r := α / β / β) (by fev) ?_
    rw [div_div, sq]
  · unfold Gamma.skewness; fev
  · unfold Gamma.kurtosis; exact (hex.add (Is.num 3)).congr (by ring)
  · exact hex.congr (by ring)
  · unfold Gamma.shannonEntropy; fev
  · unfold Gamma.modes
    rw [if_neg fun hc => absurd ((ha.lt_iff Is.one).1 hc) (not_lt.2 h1)]
  · fev
  · unfold Gamma.modes
    rw [if_pos ((ha.lt_iff Is.one).2 h1)]

/-- C128 (violated): `cdf` returns the distribution function divided by Γ(α), so at every point of the support it is
wrong unless α is 1 or 2; for α > 2 it stays below 1/Γ(α) < 1 everywhere. -/
theorem C128_gamma_cdf_violated (h : Gamma.new a b = .ok d) (ha : a.Is α) (hb : b.Is β) {x : F64} {t : ℝ} (ht : 0 < t)
    (hx : x.Is t) :
    (d.cdf x).val.Is (gammaCDF α β t / Real.Gamma α) ∧
    ((d.cdf x).val.Is (gammaCDF α β t) ↔ α = 1 ∨ α = 2) ∧
    (2 < α → ∃ y, (d.cdf x).val.Is y ∧ y < 1 / Real.Gamma α ∧ 1 / Real.Gamma α < 1) := by
  obtain ⟨h0, h1, rfl⟩ := Gamma.new_ok.1 h
  have hα : 0 < α := pos_of_lt h0 ha
  have hβ : 0 < β := pos_of_lt h1 hb
  have hG := Real.Gamma_pos_of_pos hα
  have hc := Gamma.cdf_is ha hb hα hβ ht hx
  have hp : 0 < gammaCDF α β t := by rw [gammaCDF_pos_eq ht]; exact gammaP_pos hα (by positivity)
  have hl : gammaCDF α β t < 1 := by rw [gammaCDF_pos_eq ht]; exact gammaP_lt_one hα (by positivity)
  refine ⟨hc, ?_, fun h2 => ⟨_, hc, by gcongr, ?_⟩⟩
  · rw [← Gamma_eq_one_iff hα]
    constructor
    · intro h
      have := hc.eq h
      rw [div_eq_iff hG.ne'] at this
      exact (mul_left_cancel₀ hp.ne' (by linarith : gammaCDF α β t * Real.Gamma α = gammaCDF α β t * 1))
    · intro h; rw [h, div_one] at hc; exact hc
  · rw [div_lt_one hG]
    have := Real.Gamma_strictMonoOn_Ici (self_mem_Ici : (2:ℝ) ∈ Ici 2) (show α ∈ Ici 2 from h2.le) h2
    rwa [Real.Gamma_two] at this

/-- C128 (what holds): for shapes 1 and 2 the cdf is the Gamma distribution function on the whole support. -/
theorem C128_gamma_cdf_partial (h : Gamma.new a b = .ok d) (ha : a.Is α) (hb : b.Is β) (hs : α = 1 ∨ α = 2) :
    Computes (fun x => (d.cdf x).val) (gammaCDF α β) (Ioi 0) ∧ IsCDF (gammaCDF α β) := by
  have := C96_gamma h ha hb
  exact ⟨fun x t ht hx => (C128_gamma_cdf_violated h ha hb ht hx).2.1.2 hs, (gamma_density this.1 this.2.1).1⟩

/-! ### C97: convolution -/

/-- C97 (violated): the equality test is on the *shapes*: unequal shapes are always refused, even with equal rates; equal
shapes are always accepted, even with unequal rates, and then the mean of the result is not the sum of the means. -/
theorem C97_gamma_convolve_violated {a' b' : F64} {α' β' : ℝ} {e : Gamma} (h : Gamma.new a b = .ok d) (ha : a.Is α)
    (hb : b.Is β) (h' : Gamma.new a' b' = .ok e) (ha' : a'.Is α') (hb' : b'.Is β') :
    ((∃ r, d.convolve e = .ok r) ↔ α = α') ∧
    (α = α' → β ≠ β' → ∃ r m, d.convolve e = .ok r ∧ r.mean.Is m ∧ m ≠ α / β + α' / β' ∧
      HasMean (gammaPDFReal α β) (α / β) ∧ HasMean (gammaPDFReal α' β') (α' / β')) := by
  obtain ⟨h0, h1, rfl⟩ := Gamma.new_ok.1 h
  obtain ⟨h0', h1', rfl⟩ := Gamma.new_ok.1 h'
  have hα : 0 < α := pos_of_lt h0 ha
  have hβ : 0 < β := pos_of_lt h1 hb
  have hα' : 0 < α' := pos_of_lt h0' ha'
  have hβ' : 0 < β' := pos_of_lt h1' hb'
  have key : α = α' → Gamma.convolve ⟨a, b⟩ ⟨a', b'⟩ = .ok ⟨a + a', b⟩ := fun e => by
    unfold Gamma.convolve
    rw [(assertEqF_ok a a' a).2 ⟨(ha.feq_iff ha').2 e, rfl⟩]; rfl
  refine ⟨⟨fun ⟨r, hr⟩ => ?_, fun e => ⟨_, key e⟩⟩, fun e hne => ⟨_, (α + α') / β, key e, ?_, ?_, (gamma_moments hα hβ).1.1,
    (gamma_moments hα' hβ').1.1⟩⟩
  · unfold Gamma.convolve at hr
    obtain ⟨y, h2, _⟩ := (exc_bind_ok _ _ _).1 hr
    exact (ha.feq_iff ha').1 ((assertEqF_ok _ _ _).1 h2).1
  · unfold Gamma.mean; fev
  · subst e
    intro hc
    rw [add_div] at hc
    have h3 : α / β = α / β' := by linarith
    rw [div_eq_div_iff hβ.ne' hβ'.ne'] at h3
    exact hne (mul_left_cancel₀ hα.ne' h3.symm)

/-- C97 (what holds): for equal shapes and equal rates the result is the law of the sum of two independent variables. -/
theorem C97_gamma_convolve_partial {a' b' : F64} {e : Gamma} (h : Gamma.new a b = .ok d) (ha : a.Is α)
    (hb : b.Is β) (h' : Gamma.new a' b' = .ok e) (ha' : a'.Is α) (hb' : b'.Is β) :
    ∃ r, d.convolve e = .ok r ∧ Gamma.new (a + a') b = .ok r ∧ (a + a').Is (α + α) ∧
      Measure.conv (Law (gammaPDFReal α β)) (Law (gammaPDFReal α β)) = Law (gammaPDFReal (α + α) β) ∧
      Computes r.pdf (gammaPDFReal (α + α) β) (Ioi 0) := by
  have hcv := C97_gamma_convolve_violated h ha hb h' ha' hb'
  obtain ⟨h0, h1, rfl⟩ := Gamma.new_ok.1 h
  obtain ⟨h0', h1', rfl⟩ := Gamma.new_ok.1 h'
  have hα : 0 < α := pos_of_lt h0 ha
  have hβ : 0 < β := pos_of_lt h1 hb
  have hs : (a + a').Is (α + α) := ha.add ha'
  refine ⟨⟨a + a', b⟩, ?_, Gamma.new_ok.2 ⟨lt_of_pos (by positivity) hs, h1, rfl⟩, hs, gamma_conv hα hα hβ,
    Gamma.pdf_is hs hb (by positivity) hβ⟩
  unfold Gamma.convolve
  rw [(assertEqF_ok a a' a).2 ⟨(ha.feq_iff ha').2 rfl, rfl⟩]; rfl

/-- C131: convolution with an Exponential succeeds exactly when the rates agree, and returns the law of the sum. -/
theorem C131_gamma_convolve_exponential {l : F64} {lam : ℝ} {e : Exponential} (h : Gamma.new a b = .ok d) (ha : a.Is α)
    (hb : b.Is β) (h' : Exponential.new l = .ok e) (hl : l.Is lam) :
    ((∃ r, d.convolveExp e = .ok r) ↔ lam = β) ∧
    ∀ r, d.convolveExp e = .ok r → ∃ s, r.alpha.Is s ∧ r.beta.Is β ∧ Gamma.new r.alpha r.beta = .ok r ∧
      Measure.conv (Law (gammaPDFReal α β)) (Law (expPDF β)) = Law (gammaPDFReal s β) := by
  obtain ⟨h0, h1, rfl⟩ := Gamma.new_ok.1 h
  have he : e = ⟨l⟩ := by
    simp only [Exponential.new, exc_bind_ok, Rate.new_ok] at h'
    obtain ⟨_, ⟨_, rfl⟩, h⟩ := h'
    cases h; rfl
  subst he
  have hα : 0 < α := pos_of_lt h0 ha
  have hβ : 0 < β := pos_of_lt h1 hb
  have hs : (a + 1).Is (α + 1) := ha.add Is.one
  have key : ∀ r, Gamma.convolveExp ⟨a, b⟩ ⟨l⟩ = .ok r ↔ lam = β ∧ r = ⟨a + 1, b⟩ := fun r => by
    unfold Gamma.convolveExp
    rw [exc_bind_ok]
    constructor
    · rintro ⟨y, h2, h3⟩
      exact ⟨(hl.feq_iff hb).1 ((assertEqF_ok _ _ _).1 h2).1, by cases h3; rfl⟩
    · rintro ⟨h2, rfl⟩
      exact ⟨l, (assertEqF_ok _ _ _).2 ⟨(hl.feq_iff hb).2 h2, rfl⟩, rfl⟩
  refine ⟨⟨fun ⟨r, hr⟩ => ((key r).1 hr).1, fun h => ⟨_, (key _).2 ⟨h, rfl⟩⟩⟩, fun r hr => ?_⟩
  obtain ⟨_, rfl⟩ := (key r).1 hr
  refine ⟨α + 1, hs, hb, Gamma.new_ok.2 ⟨lt_of_pos (by positivity) hs, h1, rfl⟩, ?_⟩
  have e1 : Law (expPDF β) = Law (gammaPDFReal 1 β) := by
    unfold Law
    apply withDensity_congr_ae
    filter_upwards [compl_mem_ae_iff.2 (show volume ({0} : Set ℝ) = 0 by simp)] with x hx
    have hx : x ≠ 0 := hx
    congr 1
    unfold gammaPDFReal expPDF
    rcases lt_or_gt_of_ne hx with hx | hx
    · simp [hx.le, not_le.2 hx]
    · simp [hx.le, not_le.2 hx]
  rw [e1]
  exact gamma_conv hα one_pos hβ

/-! ### C129–C130: likelihood -/

theorem gamma_log {x : ℝ} (hα : 0 < α) (hβ : 0 < β) (hx : 0 < x) :
    Real.log (gammaPDFReal α β x) = α * Real.log β + (α - 1) * Real.log x - β * x - Real.log (Real.Gamma α) := by
  have hG := Real.Gamma_pos_of_pos hα
  have h1 : 0 < β ^ α := Real.rpow_pos_of_pos hβ _
  have h2 : 0 < x ^ (α - 1) := Real.rpow_pos_of_pos hx _
  rw [gammaPDF_pos_eq hx, Real.log_mul (by positivity) (Real.exp_pos _).ne', Real.log_mul (by positivity) h2.ne',
    Real.log_div h1.ne' hG.ne', Real.log_exp, Real.log_rpow hβ, Real.log_rpow hx]
  ring

theorem gamma_logLik (hα : 0 < α) (hβ : 0 < β) (xs : List ℝ) (hx : ∀ x ∈ xs, 0 < x) :
    logLik (gammaPDFReal α β) xs = xs.length * (α * Real.log β - Real.log (Real.Gamma α)) +
      (α - 1) * (xs.map Real.log).sum - β * xs.sum := by
  unfold logLik
  induction xs with
  | nil => simp
  | cons x xs ih =>
    rw [List.map_cons, List.sum_cons, ih fun y hy => hx y (by simp [hy]), gamma_log hα hβ (hx x (by simp)), List.map_cons,
      List.sum_cons, List.sum_cons, List.length_cons]
    push_cast; ring

theorem JITTER_is : Gamma.JITTER.Is (1 / 10 ^ 9) := Is.lit _

/-- what `log_likelihood` computes -/
theorem Gamma.ll_is (ha : a.Is α) (hb : b.Is β) (hα : 0 < α) (hβ : 0 < β) (xs : List F64) (rs : List ℝ)
    (hx : List.Forall₂ Is xs rs) (hp : ∀ x ∈ rs, 0 < x) :
    (Gamma.logLikelihood ⟨a, b⟩ xs).Is ((rs.map fun x => (α - 1) * Real.log (x + 1 / 10 ^ 9) - β * (1 - x)).sum -
      rs.length * (α * Max.max (1 / β) (1 / 10 ^ 9) + Real.log (Real.Gamma α))) := by
  have hG := Real.Gamma_pos_of_pos hα
  unfold Gamma.logLikelihood
  dsimp only
  have hlen : xs.length = rs.length := hx.length_eq
  have hsum : List.Forall₂ Is (xs.map fun x => (a - 1) * (x + Gamma.JITTER).ln - b * (1 - x))
      (rs.map fun x => (α - 1) * Real.log (x + 1 / 10 ^ 9) - β * (1 - x)) := by
    clear hlen
    induction hx with
    | nil => exact .nil
    | cons h1 _ ih =>
      have hj := JITTER_is
      have h0 := hp _ (List.mem_cons_self ..)
      refine .cons ?_ (ih fun y hy => hp y (by simp [hy]))
      exact ((ha.sub Is.one).mul ((h1.add hj).ln (by positivity))).sub (hb.mul (Is.one.sub h1))
  rw [hlen]
  exact (Is.sum hsum).sub ((Is.ofNat _).mul ((ha.mul ((Is.one.div hb hβ.ne').max JITTER_is)).add ((ha.gamma hα).ln hG)))

/-- C129 (violated): the code's log-likelihood has the data term with the wrong sign and `α·max(1/β,ε)` where `−α·ln β`
belongs. For Gamma(1,1) it returns Σx − 2n instead of −Σx, right only when Σx = n; for every parameter pair it exceeds
the true value for every sufficiently large single observation. -/
theorem C129_gamma_log_likelihood_violated (h : Gamma.new a b = .ok d) (ha : a.Is α) (hb : b.Is β) :
    (α = 1 → β = 1 → ∀ (xs : List F64) (rs : List ℝ), List.Forall₂ Is xs rs → (∀ x ∈ rs, 0 < x) →
      (d.logLikelihood xs).Is (rs.sum - 2 * rs.length) ∧ logLik (gammaPDFReal α β) rs = -rs.sum ∧
      ((d.logLikelihood xs).Is (logLik (gammaPDFReal α β) rs) ↔ rs.sum = rs.length)) ∧
    ∃ X : ℝ, ∀ (x : F64) (t : ℝ), x.Is t → X < t → ∃ y, (d.logLikelihood [x]).Is y ∧ logLik (gammaPDFReal α β) [t] < y := by
  obtain ⟨h0, h1, rfl⟩ := Gamma.new_ok.1 h
  have hα : 0 < α := pos_of_lt h0 ha
  have hβ : 0 < β := pos_of_lt h1 hb
  constructor
  · rintro rfl rfl xs rs hx hp
    have e := Gamma.ll_is ha hb hα hβ xs rs hx hp
    have e2 : ((rs.map fun x => ((1:ℝ) - 1) * Real.log (x + 1 / 10 ^ 9) - 1 * (1 - x)).sum -
      rs.length * (1 * Max.max (1 / 1) (1 / 10 ^ 9) + Real.log (Real.Gamma 1))) = rs.sum - 2 * rs.length := by
      rw [Real.Gamma_one, Real.log_one, max_eq_left (by norm_num)]
      have : (rs.map fun x : ℝ => ((1:ℝ) - 1) * Real.log (x + 1 / 10 ^ 9) - 1 * (1 - x)).sum = rs.sum - rs.length := by
        clear hx hp e
        induction rs with
        | nil => simp
        | cons x rs ih => rw [List.map_cons, List.sum_cons, ih, List.sum_cons, List.length_cons]; push_cast; ring
      rw [this]; ring
    rw [e2] at e
    have e3 : logLik (gammaPDFReal 1 1) rs = -rs.sum := by
      rw [gamma_logLik one_pos one_pos rs hp]; simp
    refine ⟨e, e3, ?_⟩
    rw [e3]
    constructor
    · intro h; have := e.eq h; linarith
    · intro h; exact e.congr (by linarith)
  · refine ⟨Max.max 1 ((β + α * Max.max (1 / β) (1 / 10 ^ 9) + α * Real.log β + |α - 1|) / (2 * β)), fun x t hx ht => ?_⟩
    have t1 : 1 < t := lt_of_le_of_lt (le_max_left _ _) ht
    have t2 := lt_of_le_of_lt (le_max_right _ _) ht
    rw [div_lt_iff₀ (by positivity)] at t2
    have t0 : 0 < t := by linarith
    refine ⟨_, Gamma.ll_is ha hb hα hβ [x] [t] (.cons hx .nil) (by simpa using t0), ?_⟩
    rw [gamma_logLik hα hβ [t] (by simpa using t0)]
    simp only [List.map_cons, List.map_nil, List.sum_cons, List.sum_nil, List.length_cons, List.length_nil]
    have l0 : 0 ≤ Real.log (t + 1 / 10 ^ 9) - Real.log t :=
      sub_nonneg.2 (Real.log_le_log t0 (by linarith [show (0:ℝ) < 1 / 10 ^ 9 by norm_num]))
    have l1 : Real.log (t + 1 / 10 ^ 9) - Real.log t ≤ 1 := by
      rw [← Real.log_div (by positivity) t0.ne']
      refine (Real.log_le_sub_one_of_pos (by positivity)).trans ?_
      rw [sub_le_iff_le_add, div_le_iff₀ t0]
      have : (1:ℝ) / 10 ^ 9 ≤ 1 := by norm_num
      linarith
    have l2 : -|α - 1| ≤ (α - 1) * (Real.log (t + 1 / 10 ^ 9) - Real.log t) := by
      have h3 := neg_abs_le ((α - 1) * (Real.log (t + 1 / 10 ^ 9) - Real.log t))
      rw [abs_mul, abs_of_nonneg l0] at h3
      have h4 : |α - 1| * (Real.log (t + 1 / 10 ^ 9) - Real.log t) ≤ |α - 1| * 1 :=
        mul_le_mul_of_nonneg_left l1 (abs_nonneg _)
      linarith
    push_cast
    nlinarith

/-- the derivative of the log-likelihood in each parameter -/
theorem gamma_logLik_derivs (hα : 0 < α) (hβ : 0 < β) (xs : List ℝ) (hx : ∀ x ∈ xs, 0 < x) :
    HasDerivAt (fun t => logLik (gammaPDFReal t β) xs)
      (xs.length * (Real.log β - Spec.digamma α) + (xs.map Real.log).sum) α ∧
    HasDerivAt (fun t => logLik (gammaPDFReal α t) xs) (xs.length * α / β - xs.sum) β := by
  constructor
  · have hlG : HasDerivAt (fun t => Real.log (Real.Gamma t)) (Spec.digamma α) α := by
      have h := (gamma_hasDerivAt hα).log (Real.Gamma_pos_of_pos hα).ne'
      exact h.differentiableAt.hasDerivAt
    have h : HasDerivAt (fun t : ℝ => xs.length * (t * Real.log β - Real.log (Real.Gamma t)) +
        (t - 1) * (xs.map Real.log).sum - β * xs.sum)
        (xs.length * (1 * Real.log β - Spec.digamma α) + 1 * (xs.map Real.log).sum) α :=
      (((((hasDerivAt_id α).mul_const _).sub hlG).const_mul _).add (((hasDerivAt_id α).sub_const 1).mul_const _)).sub_const _
    refine HasDerivAt.congr_of_eventuallyEq (h.congr_deriv (by ring)) ?_
    filter_upwards [Ioi_mem_nhds hα] with t ht
    exact gamma_logLik ht hβ xs hx
  · have h : HasDerivAt (fun t : ℝ => xs.length * (α * Real.log t - Real.log (Real.Gamma α)) +
        (α - 1) * (xs.map Real.log).sum - t * xs.sum)
        (xs.length * (α * β⁻¹) - 1 * xs.sum) β :=
      (((((Real.hasDerivAt_log hβ.ne').const_mul α).sub_const _).const_mul _).add_const _).sub ((hasDerivAt_id β).mul_const _)
    refine HasDerivAt.congr_of_eventuallyEq (h.congr_deriv (by rw [div_eq_mul_inv]; ring)) ?_
    filter_upwards [Ioi_mem_nhds hβ] with t ht
    exact gamma_logLik hα ht xs hx

theorem gamma_score_fold (hb : b.Is β) (hβ : 0 < β) (xs : List F64) (rs : List ℝ) (hx : List.Forall₂ Is xs rs)
    (hp : ∀ x ∈ rs, 1 / 10 ^ 9 ≤ x / β) : ∀ (p : F64 × F64) (u v : ℝ), p.1.Is u → p.2.Is v →
    (xs.foldl (fun (acc : F64 × F64) x => (acc.1 + ((x / b).max Gamma.JITTER).ln, acc.2 - x)) p).1.Is
      (u + (rs.map Real.log).sum - rs.length * Real.log β) ∧
    (xs.foldl (fun (acc : F64 × F64) x => (acc.1 + ((x / b).max Gamma.JITTER).ln, acc.2 - x)) p).2.Is (v - rs.sum) := by
  induction hx with
  | nil => intro p u v hu hv; exact ⟨hu.congr (by simp), hv.congr (by simp)⟩
  | @cons x t xs rs h1 _ ih =>
    intro p u v hu hv
    have h0 := hp t (List.mem_cons_self ..)
    have ht : 0 < t / β := lt_of_lt_of_le (by norm_num) h0
    have ht' : 0 < t := by
      have := mul_pos ht hβ; rwa [div_mul_cancel₀ _ hβ.ne'] at this
    have hm : ((x / b).max Gamma.JITTER).Is (t / β) := ((h1.div hb hβ.ne').max JITTER_is).congr (max_eq_left h0)
    have hl := hm.ln ht
    rw [Real.log_div ht'.ne' hβ.ne'] at hl
    have := ih (fun y hy => hp y (by simp [hy])) (p.1 + ((x / b).max Gamma.JITTER).ln, p.2 - x) _ _ (hu.add hl) (hv.sub h1)
    rw [List.foldl_cons]
    refine ⟨this.1.congr ?_, this.2.congr ?_⟩
    · rw [List.map_cons, List.sum_cons, List.length_cons]; push_cast; ring
    · rw [List.sum_cons]; ring

/-- C130 (violated): on data in the documented range the rate component of `score` is the derivative of the
log-likelihood, but the shape component is short of it by 2·n·ln β (it has ln(x/β) where ln(βx) belongs), so it is right
exactly when β = 1 or there is no data. -/
theorem C130_gamma_score_violated (h : Gamma.new a b = .ok d) (ha : a.Is α) (hb : b.Is β) (xs : List F64) (rs : List ℝ)
    (hx : List.Forall₂ Is xs rs) (hp : ∀ x ∈ rs, 1 / 10 ^ 9 ≤ x / β) :
    ∃ ga gb, HasDerivAt (fun t => logLik (gammaPDFReal t β) rs) ga α ∧ HasDerivAt (fun t => logLik (gammaPDFReal α t) rs) gb β ∧
      (d.score xs).beta.Is gb ∧ (d.score xs).alpha.Is (ga - 2 * rs.length * Real.log β) ∧
      ((d.score xs).alpha.Is ga ↔ β = 1 ∨ rs = []) := by
  obtain ⟨h0, h1, rfl⟩ := Gamma.new_ok.1 h
  have hα : 0 < α := pos_of_lt h0 ha
  have hβ : 0 < β := pos_of_lt h1 hb
  have hpos : ∀ x ∈ rs, 0 < x := fun t ht => by
    have h3 : 0 < t / β := lt_of_lt_of_le (by norm_num) (hp t ht)
    have := mul_pos h3 hβ; rwa [div_mul_cancel₀ _ hβ.ne'] at this
  obtain ⟨d1, d2⟩ := gamma_logLik_derivs hα hβ rs hpos
  obtain ⟨f1, f2⟩ := gamma_score_fold hb hβ xs rs hx hp (0, 0) 0 0 Is.zero Is.zero
  have hlen : xs.length = rs.length := hx.length_eq
  have hsa : (Gamma.score ⟨a, b⟩ xs).alpha.Is
      (rs.length * (Real.log β - Spec.digamma α) + (rs.map Real.log).sum - 2 * rs.length * Real.log β) := by
    unfold Gamma.score; dsimp only
    rw [hlen]
    exact (f1.sub ((Is.ofNat _).mul (ha.digamma hα))).congr (by ring)
  refine ⟨_, _, d1, d2, ?_, hsa, ?_⟩
  · unfold Gamma.score; dsimp only
    rw [hlen]
    exact (f2.add (((Is.ofNat _).mul ha).div hb hβ.ne')).congr (by ring)
  · constructor
    · intro hc
      have := hsa.eq hc
      have h4 : (rs.length : ℝ) * Real.log β = 0 := by linarith
      rcases mul_eq_zero.1 h4 with h5 | h5
      · exact Or.inr (List.length_eq_zero_iff.1 (by exact_mod_cast h5))
      · left
        rcases Real.log_eq_zero.1 h5 with h | h | h <;> [skip; exact h; skip] <;> linarith
    · rintro (rfl | rfl)
      · exact hsa.congr (by simp)
      · exact hsa.congr (by simp)

/-- C130 (what holds): with unit rate both components of `score` are the derivatives of the log-likelihood. -/
theorem C130_gamma_score_partial (h : Gamma.new a b = .ok d) (ha : a.Is α) (hb : b.Is 1) (xs : List F64) (rs : List ℝ)
    (hx : List.Forall₂ Is xs rs) (hp : ∀ x ∈ rs, 1 / 10 ^ 9 ≤ x) :
    ∃ ga gb, HasDerivAt (fun t => logLik (gammaPDFReal t 1) rs) ga α ∧ HasDerivAt (fun t => logLik (gammaPDFReal α t) rs) gb 1 ∧
      (d.score xs).beta.Is gb ∧ (d.score xs).alpha.Is ga := by
  obtain ⟨ga, gb, h1, h2, h3, _, h5⟩ := C130_gamma_score_violated h ha hb xs rs hx (by simpa using hp)
  exact ⟨ga, gb, h1, h2, h3, h5.2 (Or.inl rfl)⟩

end

section
attribute [local instance] exactFP exactFP_exact
theorem gamma_ex : Gamma.new (fin 3) (fin 2) = .ok ⟨fin 3, fin 2⟩ :=
  Gamma.new_ok.2 ⟨fin_lt_fin.2 (by norm_num), fin_lt_fin.2 (by norm_num), rfl⟩
/-- Gamma(3, 2): the cdf at 1 is not the distribution function -/
example : ¬ (Gamma.cdf ⟨fin 3, fin 2⟩ (fin 1)).val.Is (gammaCDF 3 2 1) := fun h => by
  have := (C128_gamma_cdf_violated gamma_ex (Is.fin 3) (Is.fin 2) one_pos (Is.fin 1)).2.1.1 h
  norm_num at this
example : ∃ x m, (Gamma.modes ⟨fin 3, fin 2⟩) = .ok [x] ∧ x.Is m ∧ IsMode (gammaPDFReal 3 2) m :=
  (C96_gamma gamma_ex (Is.fin 3) (Is.fin 2)).2.2.2.2.2.2.2.2.2.1 (by norm_num)
/-- a score on data 1, 2 at Gamma(3, 2) is wrong -/
example : ∃ ga, HasDerivAt (fun t => logLik (gammaPDFReal t 2) [1, 2]) ga 3 ∧
    ¬ (Gamma.score ⟨fin 3, fin 2⟩ [fin 1, fin 2]).alpha.Is ga := by
  obtain ⟨ga, gb, h1, _, _, _, h5⟩ := C130_gamma_score_violated gamma_ex (Is.fin 3) (Is.fin 2) [fin 1, fin 2] [1, 2]
    (.cons (Is.fin 1) (.cons (Is.fin 2) .nil)) (by intro x hx; simp at hx; rcases hx with rfl | rfl <;> norm_num)
  refine ⟨ga, h1, fun h => ?_⟩
  have := h5.1 h
  simp at this
end
end Rstat
