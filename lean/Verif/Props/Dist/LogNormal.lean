import Verif.Model.Dist.NormalFamily
import Verif.Lemmas.Dist.LogNormal
import Verif.Props.Normal
import Verif.Lemmas.DistBase
import Mathlib.Analysis.Complex.ExponentialBounds

/-! Properties C99, C167–C172: the log-normal law.  The constructor's second argument is handed to the wrapped normal as its
*variance* `v`; `cdf`, `pdf` and `median` read it that way, the moments, mode, entropy and Fisher information read the same
number as a standard deviation. -/
set_option linter.unusedSectionVars false
namespace Rstat
open F64 Consts Spec MeasureTheory ProbabilityTheory Set

theorem LogNormal.new_ok {a b : F64} {d : LogNormal} : LogNormal.new a b = .ok d ↔ 0 < b ∧ d = ⟨⟨a, b⟩⟩ := by
  unfold LogNormal.new
  constructor
  · intro h
    cases hn : UvNormal.new a b with
    | error e => rw [hn] at h; cases h
    | ok n =>
      rw [hn] at h
      obtain ⟨h0, rfl⟩ := UvNormal.new_ok.1 hn
      exact ⟨h0, by cases h; rfl⟩
  · rintro ⟨h0, rfl⟩
    rw [UvNormal.new_ok.2 ⟨h0, rfl⟩]

/-- two positive numbers `v`, `v²` are told apart by any strictly increasing function unless `v = 1` -/
theorem sq_eq_iff_one {g : ℝ → ℝ} (hg : StrictMonoOn g (Ioi 0)) {v : ℝ} (hv : 0 < v) : g (v * v) = g v ↔ v = 1 := by
  constructor
  · intro h
    have := hg.injOn (show v * v ∈ Ioi (0:ℝ) from mul_pos hv hv) hv h
    exact mul_left_cancel₀ hv.ne' (by linarith)
  · rintro rfl; norm_num

section
variable [FP] [FP.Exact] {a b : F64} {μ v : ℝ} {d : LogNormal}

/-- C99, the part that holds: the constructor accepts exactly positive second arguments `v`; `cdf` is the distribution function
of `exp N(mu, variance v)` on `[0, ∞)` (that law has the density `logNormalPDF mu v`), and `median` is its median. -/
theorem C99_lognormal_partial (h : LogNormal.new a b = .ok d) (ha : a.Is μ) (hb : b.Is v) :
    0 < v ∧ IsCDF (logNormalCDF μ v) ∧ IsDensityOf (logNormalPDF μ v) (logNormalCDF μ v) ∧
    (∀ (x : F64) (t : ℝ), x.Is t → 0 ≤ t → (d.cdf x).val.Is (logNormalCDF μ v t)) ∧
    (∃ m, d.median.Is m ∧ logNormalCDF μ v m = 1 / 2) := by
  obtain ⟨h0, rfl⟩ := LogNormal.new_ok.1 h
  have hv := pos_of_lt h0 hb
  refine ⟨hv, (logNormal_density μ hv).1, (logNormal_density μ hv).2, fun x t hx ht => ?_, Real.exp μ, ha.exp, ?_⟩
  · rcases ht.eq_or_lt with rfl | ht
    · unfold LogNormal.cdf logNormalCDF
      rw [if_pos le_rfl, ln_zero hx]
      exact Is.zero
    · unfold LogNormal.cdf logNormalCDF
      rw [if_neg (not_le.2 ht)]
      exact normal_cdf_is (d := ⟨a, b⟩) ha hb hv (hx.ln ht)
  · unfold logNormalCDF
    rw [if_neg (not_le.2 (Real.exp_pos μ)), Real.log_exp, sub_self, zero_div, Phi_zero]

/-- C99, violated: `pdf` misses the factor `1/x`, so on the support it is the density of its own `cdf` only at `x = 1`;
`mean` and `variance` are those of the law with distribution function `cdf` only if `v = 1` (they are those of
`exp N(mu, variance v²)`). -/
theorem C99_lognormal_violated (h : LogNormal.new a b = .ok d) (ha : a.Is μ) (hb : b.Is v) :
    (∀ (x : F64) (t : ℝ), x.Is t → 0 < t → ((d.pdf x).Is (logNormalPDF μ v t) ↔ t = 1)) ∧
    (∃ m w, HasMeanVar (logNormalPDF μ v) m w ∧ (d.mean.Is m ↔ v = 1) ∧ (d.variance.Is w ↔ v = 1)) ∧
    (∃ m w, HasMeanVar (logNormalPDF μ (v ^ 2)) m w ∧ d.mean.Is m ∧ d.variance.Is w) := by
  obtain ⟨h0, rfl⟩ := LogNormal.new_ok.1 h
  have hv := pos_of_lt h0 hb
  have im : (LogNormal.mean ⟨⟨a, b⟩⟩).Is (Real.exp (μ + v * v / 2)) := by unfold LogNormal.mean; fev
  have iv : (LogNormal.variance ⟨⟨a, b⟩⟩).Is ((Real.exp (v * v) - 1) * Real.exp (2 * μ + v * v)) := by
    unfold LogNormal.variance; dsimp only; fev
  refine ⟨fun x t hx ht => ?_, ⟨_, _, (logNormal_moments μ hv).1, ?_, ?_⟩,
    ⟨_, _, (logNormal_moments μ (show 0 < v ^ 2 by positivity)).1, im.congr (by rw [sq]), iv.congr (by rw [sq])⟩⟩
  · have hp : (LogNormal.pdf ⟨⟨a, b⟩⟩ x).Is (gaussianPDFReal μ v.toNNReal (Real.log t)) :=
      normal_pdf_is (d := ⟨a, b⟩) ha hb hv (hx.ln ht)
    have hg : 0 < gaussianPDFReal μ v.toNNReal (Real.log t) := gaussianPDFReal_pos _ _ _ (by simpa using hv)
    unfold logNormalPDF
    rw [if_neg (not_le.2 ht)]
    constructor
    · intro hc
      have e := Is.eq hp hc
      rw [eq_div_iff ht.ne'] at e
      exact mul_left_cancel₀ hg.ne' (by linarith)
    · rintro rfl; exact hp.congr (by rw [div_one])
  · have hg : StrictMonoOn (fun y : ℝ => Real.exp (μ + y / 2)) (Ioi 0) := fun x _ y _ hxy =>
      Real.exp_lt_exp.2 (by linarith)
    exact ⟨fun hc => (sq_eq_iff_one hg hv).1 (Is.eq im hc), fun e => im.congr ((sq_eq_iff_one hg hv).2 e)⟩
  · have hg : StrictMonoOn (fun y : ℝ => (Real.exp y - 1) * Real.exp (2 * μ + y)) (Ioi 0) := fun x hx y _ hxy => by
      have h1 : 0 < Real.exp x - 1 := by linarith [Real.add_one_lt_exp (show x ≠ 0 from (ne_of_gt hx)), show 0 < x from hx]
      have h2 := Real.exp_lt_exp.2 hxy
      exact mul_lt_mul (by linarith) (Real.exp_le_exp.2 (by linarith)) (Real.exp_pos _) (by linarith)
    exact ⟨fun hc => (sq_eq_iff_one hg hv).1 (Is.eq iv hc), fun e => iv.congr ((sq_eq_iff_one hg hv).2 e)⟩

/-- C167, violated: skewness and kurtosis are those of the law with distribution function `cdf` only if `v = 1`. -/
theorem C167_lognormal_shape_violated (h : LogNormal.new a b = .ok d) (_ : a.Is μ) (hb : b.Is v) :
    (∃ s, HasSkew (logNormalPDF μ v) s ∧ (d.skewness.Is s ↔ v = 1)) ∧
    (∃ k, HasKurt (logNormalPDF μ v) k ∧ (d.kurtosis.Is k ↔ v = 1) ∧ (d.excessKurtosis.Is (k - 3) ↔ v = 1)) := by
  obtain ⟨h0, rfl⟩ := LogNormal.new_ok.1 h
  have hv := pos_of_lt h0 hb
  have h1 : ∀ x : ℝ, 0 < x → 0 < Real.exp x - 1 := fun x hx => by linarith [Real.add_one_lt_exp hx.ne']
  have is : (LogNormal.skewness ⟨⟨a, b⟩⟩).Is ((Real.exp (v * v) + 2) * Real.sqrt (Real.exp (v * v) - 1)) := by
    have := h1 (v * v) (by positivity)
    unfold LogNormal.skewness; dsimp only; fev
  have ik : (LogNormal.excessKurtosis ⟨⟨a, b⟩⟩).Is
      (Real.exp (4 * (v * v)) + 2 * Real.exp (3 * (v * v)) + 3 * Real.exp (2 * (v * v)) - 6) := by
    unfold LogNormal.excessKurtosis; dsimp only; fev
  have ik3 : (LogNormal.kurtosis ⟨⟨a, b⟩⟩).Is
      (Real.exp (4 * (v * v)) + 2 * Real.exp (3 * (v * v)) + 3 * Real.exp (2 * (v * v)) - 6 + 3) := ik.add (Is.num 3)
  have hg : StrictMonoOn (fun y : ℝ => (Real.exp y + 2) * Real.sqrt (Real.exp y - 1)) (Ioi 0) := fun x hx y _ hxy => by
    have h2 := Real.exp_lt_exp.2 hxy
    exact mul_lt_mul (by linarith) (Real.sqrt_le_sqrt (by linarith)) (Real.sqrt_pos.2 (h1 x hx)) (by positivity)
  have hk : StrictMonoOn (fun y : ℝ => Real.exp (4 * y) + 2 * Real.exp (3 * y) + 3 * Real.exp (2 * y) - 6) (Ioi 0) := fun x hx y _ hxy => by
    have := Real.exp_lt_exp.2 (show 4 * x < 4 * y by linarith)
    have := Real.exp_lt_exp.2 (show 3 * x < 3 * y by linarith)
    have := Real.exp_lt_exp.2 (show 2 * x < 2 * y by linarith)
    show _ - 6 < _ - 6
    linarith
  obtain ⟨_, m3, m4⟩ := logNormal_moments μ hv
  refine ⟨⟨_, m3, fun hc => (sq_eq_iff_one hg hv).1 (Is.eq is hc), fun e => is.congr ((sq_eq_iff_one hg hv).2 e)⟩,
    ⟨_, m4, ⟨fun hc => (sq_eq_iff_one hk hv).1 ?_, fun e => ik3.congr ?_⟩, ⟨fun hc => (sq_eq_iff_one hk hv).1 ?_, fun e => ik.congr ?_⟩⟩⟩
  · have := Is.eq ik3 hc; show _ - 6 = _ - 6; linarith
  · have : _ - (6:ℝ) = _ - 6 := (sq_eq_iff_one hk hv).2 e; linarith
  · have := Is.eq ik hc; show _ - 6 = _ - 6; linarith
  · have : _ - (6:ℝ) = _ - 6 := (sq_eq_iff_one hk hv).2 e; linarith

/-- C168, violated: the law with distribution function `cdf` has the unique mode `exp(mu - v)`; `modes` answers
`exp(mu - v²)`, right only if `v = 1`. -/
theorem C168_lognormal_modes_violated (h : LogNormal.new a b = .ok d) (ha : a.Is μ) (hb : b.Is v) :
    (∀ x, IsMode (logNormalPDF μ v) x ↔ x = Real.exp (μ - v)) ∧
    ∃ x r, d.modes = [x] ∧ x.Is r ∧ (IsMode (logNormalPDF μ v) r ↔ v = 1) := by
  obtain ⟨h0, rfl⟩ := LogNormal.new_ok.1 h
  have hv := pos_of_lt h0 hb
  have hm : ∀ x, IsMode (logNormalPDF μ v) x ↔ x = Real.exp (μ - v) := fun x => by
    constructor
    · intro hx; by_contra hne
      exact absurd (hx _) (not_le.2 (logNormal_mode μ hv hne))
    · rintro rfl y
      rcases eq_or_ne y (Real.exp (μ - v)) with rfl | hne
      · exact le_rfl
      · exact (logNormal_mode μ hv hne).le
  refine ⟨hm, _, _, rfl, (ha.sub (hb.mul hb)).exp, ?_⟩
  rw [hm, Real.exp_eq_exp]
  constructor
  · intro e; exact mul_left_cancel₀ hv.ne' (by linarith)
  · rintro rfl; norm_num

/-- C169, violated: `shannon_entropy` is in bits and with `v` for the standard deviation; it is the entropy (in nats) of the law
with distribution function `cdf` exactly on one curve of parameters. -/
theorem C169_lognormal_entropy_violated (h : LogNormal.new a b = .ok d) (ha : a.Is μ) (hb : b.Is v) :
    ∃ H, HasEntropy (logNormalPDF μ v) H ∧
      (d.shannonEntropy.Is H ↔
        (μ + 1 / 2 + Real.log (2 * Real.pi) / 2) * (1 - Real.log 2) + Real.log v * (1 - Real.log 2 / 2) = 0) := by
  obtain ⟨h0, rfl⟩ := LogNormal.new_ok.1 h
  have hv := pos_of_lt h0 hb
  have hp := Real.pi_pos
  have ie : (LogNormal.shannonEntropy ⟨⟨a, b⟩⟩).Is (Real.log (v * Real.exp (μ + 1 / 2) * Real.sqrt (Real.pi * 2)) / Real.log 2) := by
    have ih : (F64.fin (1 / 2)).Is (1 / 2) := Is.fin _
    have i1 : (b * (a + F64.fin (1 / 2)).exp * PI_2.sqrt).Is (v * Real.exp (μ + 1 / 2) * Real.sqrt (Real.pi * 2)) :=
      (hb.mul (ha.add ih).exp).mul (PI_2_is.sqrt (by positivity))
    have := i1.log2 (by positivity)
    exact this
  have l2 : 0 < Real.log 2 := Real.log_pos (by norm_num)
  refine ⟨_, logNormal_entropy μ hv, ?_⟩
  have e1 : Real.log (v * Real.exp (μ + 1 / 2) * Real.sqrt (Real.pi * 2)) = Real.log v + (μ + 1 / 2) + Real.log (2 * Real.pi) / 2 := by
    rw [Real.log_mul (by positivity) (by positivity), Real.log_mul hv.ne' (Real.exp_pos _).ne', Real.log_exp,
      Real.log_sqrt (by positivity), mul_comm Real.pi 2]
  have e2 : μ + 1 / 2 * Real.log (2 * Real.pi * Real.exp 1 * v) = μ + 1 / 2 + Real.log (2 * Real.pi) / 2 + Real.log v / 2 := by
    rw [Real.log_mul (by positivity) hv.ne', Real.log_mul (by positivity) (Real.exp_pos 1).ne', Real.log_exp]; ring
  rw [e2]
  rw [e1] at ie
  constructor
  · intro hc
    have e := Is.eq ie hc
    rw [div_eq_iff l2.ne'] at e
    linear_combination e
  · intro e
    refine ie.congr ?_
    rw [div_eq_iff l2.ne']
    linear_combination e

/-- the log-normal family in (mu, v) -/
noncomputable def Spec.logNormalFamily (θ : Fin 2 → ℝ) (x : ℝ) : ℝ := logNormalPDF (θ 0) (θ 1) x

theorem logNormal_score (μ : ℝ) {v : ℝ} (hv : 0 < v) (i : Fin 2) (t : ℝ) :
    deriv (fun s => Real.log (logNormalFamily (Function.update ![μ, v] i s) (Real.exp t))) (![μ, v] i) =
    deriv (fun s => Real.log (normalFamily (Function.update ![μ, v] i s) t)) (![μ, v] i) := by
  have e : (fun s => Real.log (logNormalFamily (Function.update ![μ, v] i s) (Real.exp t))) =ᶠ[nhds (![μ, v] i)]
      fun s => Real.log (normalFamily (Function.update ![μ, v] i s) t) - t := by
    have hev : ∀ᶠ s in nhds (![μ, v] i), 0 < (Function.update ![μ, v] i s) 1 := by
      fin_cases i
      · exact Filter.Eventually.of_forall fun s => hv
      · exact lt_mem_nhds hv
    filter_upwards [hev] with s hs
    unfold logNormalFamily normalFamily logNormalPDF
    rw [if_neg (not_le.2 (Real.exp_pos t)), Real.log_exp, Real.log_div (gaussianPDFReal_pos _ _ _ (by simpa using hs)).ne'
      (Real.exp_pos t).ne', Real.log_exp]
  rw [e.deriv_eq, deriv_sub_const]

theorem logNormal_fisher (μ : ℝ) {v : ℝ} (hv : 0 < v) (i j : Fin 2) :
    fisher logNormalFamily ![μ, v] i j = fisher normalFamily ![μ, v] i j := by
  unfold fisher
  have := (logNormal_transfer μ v (fun x =>
    deriv (fun t => Real.log (logNormalFamily (Function.update ![μ, v] i t) x)) (![μ, v] i) *
    deriv (fun t => Real.log (logNormalFamily (Function.update ![μ, v] j t) x)) (![μ, v] j))).2
  simp only [logNormal_score μ hv] at this
  exact this

/-- C170, violated: the Fisher information of the family in (mu, v) is `diag(1/v, 1/(2v²))`; the code returns
`diag(1/v², 1/(2v⁴))`, right on the diagonal only if `v = 1`. -/
theorem C170_lognormal_fisher_violated (h : LogNormal.new a b = .ok d) (_ : a.Is μ) (hb : b.Is v) :
    ((d.fisherInformation 0 0).Is (fisher logNormalFamily ![μ, v] 0 0) ↔ v = 1) ∧
    ((d.fisherInformation 1 1).Is (fisher logNormalFamily ![μ, v] 1 1) ↔ v = 1) ∧
    (d.fisherInformation 0 1).Is (fisher logNormalFamily ![μ, v] 0 1) ∧
    (d.fisherInformation 1 0).Is (fisher logNormalFamily ![μ, v] 1 0) := by
  obtain ⟨h0, rfl⟩ := LogNormal.new_ok.1 h
  have hv := pos_of_lt h0 hb
  obtain ⟨f1, f2, f3, f4⟩ := normal_fisher μ hv
  simp only [logNormal_fisher μ hv]
  have i0 : (1 / b / b).Is (1 / v / v) := (Is.one.div hb hv.ne').div hb hv.ne'
  have i1 : (1 / b / b * (1 / b / b) / 2).Is (1 / v / v * (1 / v / v) / 2) := (i0.mul i0).div (Is.num 2) two_ne_zero
  refine ⟨?_, ?_, Is.zero.congr f2.symm, Is.zero.congr f3.symm⟩
  · rw [f1]
    constructor
    · intro hc
      have e := Is.eq i0 hc
      field_simp at e; linarith
    · rintro rfl; exact i0.congr (by norm_num)
  · rw [f4]
    constructor
    · intro hc
      have e := Is.eq i1 hc
      field_simp at e
      have : v ^ 2 = 1 := by linarith
      nlinarith
    · rintro rfl; exact i1.congr (by norm_num)

/-- C171, violated: for a standard normal draw `z`, `sample` returns `exp(M + S z)` where `M`, `S` are `mean()` and
`standard_deviation()` of the distribution itself. The median of the samples, `exp M`, lies strictly above the median
of the law with distribution function `cdf`, for all parameters: samples never follow the declared law. -/
theorem C171_lognormal_sample_violated (h : LogNormal.new a b = .ok d) (ha : a.Is μ) (hb : b.Is v) :
    ∃ M S : ℝ, d.mean.Is M ∧ d.standardDeviation.Is S ∧ 0 < S ∧
      (∀ (σ : Type) (g : NormalRng σ) (s : σ) (z : ℝ), (g.draw s).1.Is z →
        ∃ y, (d.sample g s).1 = .ok y ∧ y.Is (Real.exp (M + S * z))) ∧
      (∀ z, Real.exp (M + S * z) ≤ Real.exp M ↔ z ≤ 0) ∧
      (gaussianReal 0 1).real (Iic 0) = 1 / 2 ∧ 1 / 2 < logNormalCDF μ v (Real.exp M) := by
  obtain ⟨h0, rfl⟩ := LogNormal.new_ok.1 h
  have hv := pos_of_lt h0 hb
  have im : (LogNormal.mean ⟨⟨a, b⟩⟩).Is (Real.exp (μ + v * v / 2)) := by unfold LogNormal.mean; fev
  have h1 : 0 < Real.exp (v * v) - 1 := by linarith [Real.add_one_lt_exp (mul_pos hv hv).ne', mul_pos hv hv]
  have iv : (LogNormal.variance ⟨⟨a, b⟩⟩).Is ((Real.exp (v * v) - 1) * Real.exp (2 * μ + v * v)) := by
    unfold LogNormal.variance; dsimp only; fev
  have is : (LogNormal.standardDeviation ⟨⟨a, b⟩⟩).Is (Real.sqrt ((Real.exp (v * v) - 1) * Real.exp (2 * μ + v * v))) :=
    iv.sqrt (by positivity)
  have hS : 0 < Real.sqrt ((Real.exp (v * v) - 1) * Real.exp (2 * μ + v * v)) := Real.sqrt_pos.2 (by positivity)
  refine ⟨_, _, im, is, hS, fun σ g s z hz => ?_, fun z => ?_, ?_, ?_⟩
  · unfold LogNormal.sample
    have hf : (LogNormal.standardDeviation ⟨⟨a, b⟩⟩).isFinite := by
      rw [is.eq_fin hS.ne']; trivial
    rw [if_pos hf]
    exact ⟨_, rfl, (im.add (is.mul hz)).exp⟩
  · rw [Real.exp_le_exp]
    constructor
    · intro hz
      exact nonpos_of_mul_nonpos_right (a := Real.sqrt ((Real.exp (v * v) - 1) * Real.exp (2 * μ + v * v))) (by linarith) hS
    · intro hz
      have := mul_nonpos_of_nonneg_of_nonpos hS.le hz
      linarith
  · have := cdf_gaussian 0 one_pos 0
    rw [sub_self, zero_div, Phi_zero, cdf_eq_real] at this
    simpa using this
  · unfold logNormalCDF
    rw [if_neg (not_le.2 (Real.exp_pos _)), Real.log_exp, ← Phi_zero]
    refine Phi_strictMono (div_pos ?_ (Real.sqrt_pos.2 hv))
    have := Real.add_one_le_exp (μ + v * v / 2)
    nlinarith [mul_pos hv hv]

/-- C172, violated: below the support, where the density and distribution function are 0, `pdf` is NaN and `cdf` is
the normal distribution function routine applied to NaN: not a probability if that routine propagates NaN (as cephes does). -/
theorem C172_lognormal_negative_violated (h : LogNormal.new a b = .ok d) {x : F64} {t : ℝ} (hx : x.Is t) (ht : t < 0) :
    logNormalPDF μ v t = 0 ∧ logNormalCDF μ v t = 0 ∧ d.pdf x = nan ∧ (d.cdf x).val = F64.norm nan ∧
    (F64.norm nan = nan → ¬ (d.cdf x).isValid) := by
  obtain ⟨h0, rfl⟩ := LogNormal.new_ok.1 h
  have hz : UvNormal.z ⟨a, b⟩ nan = nan := rfl
  have e : (LogNormal.cdf ⟨⟨a, b⟩⟩ x).val = F64.norm nan := by
    unfold LogNormal.cdf
    rw [ln_neg_nan hx ht]
    show (UvNormal.z ⟨a, b⟩ nan).norm = _
    rw [hz]
  refine ⟨if_pos ht.le, if_pos ht.le, ?_, e, fun hn hv => ?_⟩
  · unfold LogNormal.pdf UvNormal.pdf
    rw [ln_neg_nan hx ht, hz]
    rfl
  · have := hv.1
    rw [e, hn] at this
    exact F64.not_nan_le _ this
end

section
attribute [local instance] exactFP exactFP_exact
/-- non-vacuity: LogNormal(1, 2) is accepted and meets the hypotheses of C99 and C167–C172 -/
example : ∃ d, LogNormal.new (F64.fin 1) (F64.fin 2) = .ok d ∧ (F64.fin 1).Is 1 ∧ (F64.fin 2).Is 2 :=
  ⟨_, LogNormal.new_ok.2 ⟨fin_lt_fin.2 (by norm_num), rfl⟩, Is.fin 1, Is.fin 2⟩
end
end Rstat
