import Verif.Model.Dist.NormalFamily
import Verif.Lemmas.Dist.Folded
import Verif.Lemmas.DistBase
import Verif.Lemmas.MaxMin

/-! Properties C173–C176: the folded normal law. -/
set_option linter.unusedSectionVars false
namespace Rstat
open F64 Consts Spec MeasureTheory ProbabilityTheory Set

theorem FoldedNormal.new_ok {a b : F64} {d : FoldedNormal} : FoldedNormal.new a b = .ok d ↔ 0 < b ∧ d = ⟨a, b⟩ := by
  simp only [FoldedNormal.new, exc_bind_ok, Loc.new_ok, Scale.new_ok]
  constructor
  · rintro ⟨_, rfl, _, ⟨h1, rfl⟩, h⟩; exact ⟨h1, by cases h; rfl⟩
  · rintro ⟨h1, rfl⟩; exact ⟨_, rfl, _, ⟨h1, rfl⟩, rfl⟩

section
variable [FP] [FP.Exact] {mu sigma : F64} {μ s : ℝ} {d : FoldedNormal}

/-- the value of `cdf` at every real point, in or out of the support -/
theorem FoldedNormal.cdf_is (hm : mu.Is μ) (hs : sigma.Is s) (s0 : 0 < s) {x : F64} {t : ℝ} (hx : x.Is t) :
    (FoldedNormal.cdf ⟨mu, sigma⟩ x).val.Is (Phi ((t - μ) / s) - Phi ((-t - μ) / s)) := by
  have h2 : (0:ℝ) < Real.sqrt 2 := by positivity
  have i2 : ((2 : F64).sqrt).Is (Real.sqrt 2) := (Is.num 2).sqrt (by norm_num)
  have ih : (F64.fin (1 / 2)).Is (1 / 2) := Is.fin _
  refine Is.congr (ih.mul (((((hx.add hm).div hs s0.ne').div i2 h2.ne').erf).add (((hx.sub hm).div hs s0.ne').div i2 h2.ne').erf)) ?_
  unfold Phi
  rw [show (-t - μ) / s / Real.sqrt 2 = -((t + μ) / s / Real.sqrt 2) by ring, erf_neg]
  ring

/-- the value of `pdf` at every real point, in or out of the support -/
theorem FoldedNormal.pdf_is (hm : mu.Is μ) (hs : sigma.Is s) (s0 : 0 < s) {x : F64} {t : ℝ} (hx : x.Is t) :
    (FoldedNormal.pdf ⟨mu, sigma⟩ x).Is (gaussianPDFReal μ (s ^ 2).toNNReal t + gaussianPDFReal μ (s ^ 2).toNNReal (-t)) := by
  have hp := Real.pi_pos
  have hn : (0:ℝ) < Real.sqrt (Real.pi * 2) := by positivity
  unfold FoldedNormal.pdf; dsimp only
  have iz : ∀ z : F64, ∀ r : ℝ, z.Is r → (-z * z / 2).exp.Is (Real.exp (-r * r / 2)) := fun z r hz => by fev
  have inorm : (PI_2.sqrt * sigma).Is (Real.sqrt (Real.pi * 2) * s) := (PI_2_is.sqrt (by positivity)).mul hs
  have hns : Real.sqrt (Real.pi * 2) * s ≠ 0 := by positivity
  refine Is.congr (((iz _ _ ((hx.add hm).div hs s0.ne')).div inorm hns).add ((iz _ _ ((hx.sub hm).div hs s0.ne')).div inorm hns)) ?_
  rw [gauss_sq s0, gauss_sq s0, mul_comm Real.pi 2,
    show -((t - μ) / s) ^ 2 / 2 = -((t - μ) / s) * ((t - μ) / s) / 2 by ring,
    show -((-t - μ) / s) ^ 2 / 2 = -((t + μ) / s) * ((t + μ) / s) / 2 by ring]
  ring

/-- C173: the accepted scales are the positive ones; on the support `[0, ∞)`, `pdf` and `cdf` are those of the folded normal law,
`mean` and `variance` are its mean and variance, `precision` is `1/sigma²`, and `sample` returns `|mu + sigma z|` for a standard normal
draw `z`, which has that law. -/
theorem C173_folded_normal (h : FoldedNormal.new mu sigma = .ok d) (hm : mu.Is μ) (hs : sigma.Is s) :
    0 < s ∧ Computes d.pdf (foldedPDF μ s) (Ici 0) ∧ Computes (fun x => (d.cdf x).val) (foldedCDF μ s) (Ici 0) ∧
    IsCDF (foldedCDF μ s) ∧ IsDensityOf (foldedPDF μ s) (foldedCDF μ s) ∧
    (∃ m v, d.mean.Is m ∧ d.variance.Is v ∧ HasMeanVar (foldedPDF μ s) m v) ∧
    d.precision.Is (1 / s ^ 2) ∧
    (∀ (σ : Type) (g : NormalRng σ) (st : σ), (d.sample g st).2 = (g.draw st).2 ∧
      ∀ z : ℝ, (g.draw st).1.Is z → ∃ y, (d.sample g st).1 = .ok y ∧ y.Is |μ + s * z|) ∧
    (gaussianReal 0 1).map (fun z => |μ + s * z|) = Law (foldedPDF μ s) := by
  obtain ⟨h0, rfl⟩ := FoldedNormal.new_ok.1 h
  have s0 : 0 < s := pos_of_lt h0 hs
  have hp := Real.pi_pos
  have h2 : (0:ℝ) < Real.sqrt 2 := by positivity
  have hmean := folded_mean (μ := μ) s0
  have im : (FoldedNormal.mean ⟨mu, sigma⟩).Is
      (2 * s ^ 2 * gaussianPDFReal μ (s ^ 2).toNNReal 0 + μ * (Phi (μ / s) - Phi (-(μ / s)))) := by
    unfold FoldedNormal.mean; dsimp only
    have i2 : ((2 : F64).sqrt).Is (Real.sqrt 2) := (Is.num 2).sqrt (by norm_num)
    have iz : (mu / sigma / (2 : F64).sqrt).Is (μ / s / Real.sqrt 2) := (hm.div hs s0.ne').div i2 h2.ne'
    refine Is.congr (((hs.mul (TWO_OVER_PI_is.sqrt (by positivity))).mul (iz.neg.mul iz).exp).add (hm.mul iz.erf)) ?_
    unfold Phi
    rw [gauss_sq s0, show -((0 - μ) / s) ^ 2 / 2 = -(μ / s / Real.sqrt 2) * (μ / s / Real.sqrt 2) by
        rw [neg_mul, ← sq, div_pow (μ / s), Real.sq_sqrt (by norm_num)]; ring,
      neg_div, erf_neg, Real.sqrt_div (by norm_num), Real.sqrt_mul (by norm_num)]
    generalize Real.exp (-(μ / s / Real.sqrt 2) * (μ / s / Real.sqrt 2)) = E
    have hpi : 0 < Real.sqrt Real.pi := by positivity
    have h22 : Real.sqrt 2 * Real.sqrt 2 = 2 := Real.mul_self_sqrt (by norm_num)
    generalize Real.sqrt Real.pi = p at *
    generalize Real.sqrt 2 = q at *
    generalize Spec.erf _ = R
    have e1 : 2 * s ^ 2 * (1 / (q * p * s) * E) = s * (q / p) * E := by
      rw [← h22]; field_simp
    linear_combination -e1
  refine ⟨s0, fun x t ht hx => ?_, fun x t ht hx => ?_, (folded_density s0).1, (folded_density s0).2,
    ⟨_, _, im, ?_, folded_meanVar s0 hmean⟩, ?_, fun σ g st => ?_, folded_law s0⟩
  · unfold foldedPDF; rw [if_neg (not_lt.2 ht)]; exact FoldedNormal.pdf_is hm hs s0 hx
  · unfold foldedCDF; rw [if_neg (not_lt.2 ht)]; exact FoldedNormal.cdf_is hm hs s0 hx
  · unfold FoldedNormal.variance; dsimp only
    exact Is.congr (((hm.mul hm).add (hs.mul hs)).sub (im.mul im)) (by ring)
  · exact Is.congr ((Is.one.div hs s0.ne').div hs s0.ne') (by field_simp)
  · have hf : (sigma : F64).isFinite := by rw [hs.eq_fin s0.ne']; trivial
    unfold FoldedNormal.sample
    rw [if_pos (show FoldedNormal.sigma ⟨mu, sigma⟩ |>.isFinite from hf)]
    exact ⟨rfl, fun z hz => ⟨_, rfl, (hm.add (hs.mul hz)).abs⟩⟩

/-- C174, violated: below the support, where density and distribution function are 0, `pdf` is positive and `cdf` is negative (it
is the odd extension), so `cdf` is not a valid probability at any `x < 0`. -/
theorem C174_folded_negative_violated (h : FoldedNormal.new mu sigma = .ok d) (hm : mu.Is μ) (hs : sigma.Is s)
    {x : F64} {t : ℝ} (hx : x.Is t) (ht : t < 0) :
    foldedPDF μ s t = 0 ∧ foldedCDF μ s t = 0 ∧ (∃ r, 0 < r ∧ (d.pdf x).Is r) ∧
    (∃ r, r < 0 ∧ (d.cdf x).val.Is r) ∧ ¬ (d.cdf x).isValid := by
  obtain ⟨h0, rfl⟩ := FoldedNormal.new_ok.1 h
  have s0 : 0 < s := pos_of_lt h0 hs
  have hg : ∀ y, 0 < gaussianPDFReal μ (s ^ 2).toNNReal y := fun y => gaussianPDFReal_pos _ _ _ (by simp; positivity)
  have hneg : Phi ((t - μ) / s) - Phi ((-t - μ) / s) < 0 :=
    sub_neg.2 (Phi_strictMono (div_lt_div_of_pos_right (by linarith) s0))
  have ic := FoldedNormal.cdf_is hm hs s0 hx
  refine ⟨if_pos ht, if_pos ht, ⟨_, add_pos (hg t) (hg (-t)), FoldedNormal.pdf_is hm hs s0 hx⟩, ⟨_, hneg, ic⟩, fun hv => ?_⟩
  have := (Is.zero.le_iff ic).1 hv.2
  linarith

/-- C175, the part that holds: for `-sigma ≤ mu < sigma` the answer `[0]` is a mode of the law. -/
theorem C175_folded_modes_partial (h : FoldedNormal.new mu sigma = .ok d) (hm : mu.Is μ) (hs : sigma.Is s)
    (h1 : -s ≤ μ) (h2 : μ < s) : ∃ x, d.modes = [x] ∧ x.Is 0 ∧ IsMode (foldedPDF μ s) 0 := by
  obtain ⟨h0, rfl⟩ := FoldedNormal.new_ok.1 h
  have s0 : 0 < s := pos_of_lt h0 hs
  unfold FoldedNormal.modes
  rw [if_pos ((hm.lt_iff hs).2 h2)]
  exact ⟨0, rfl, Is.zero, folded_mode_zero s0 (abs_le.2 ⟨by linarith, h2.le⟩)⟩

/-- C175, violated: for every `mu ≥ sigma` and every `mu < -sigma`, the single value returned by `modes` does not maximise the density. -/
theorem C175_folded_modes_violated (h : FoldedNormal.new mu sigma = .ok d) (hm : mu.Is μ) (hs : sigma.Is s)
    (h1 : s ≤ μ ∨ μ < -s) : ∃ x r, d.modes = [x] ∧ x.Is r ∧ ¬ IsMode (foldedPDF μ s) r := by
  obtain ⟨h0, rfl⟩ := FoldedNormal.new_ok.1 h
  have s0 : 0 < s := pos_of_lt h0 hs
  unfold FoldedNormal.modes
  rcases h1 with h1 | h1
  · rw [if_neg (show ¬ mu < sigma from fun hc => absurd ((hm.lt_iff hs).1 hc) (not_lt.2 h1))]
    exact ⟨mu, μ, rfl, hm, folded_not_mode_mu s0 (by linarith)⟩
  · rw [if_pos ((hm.lt_iff hs).2 (show μ < s by linarith))]
    exact ⟨0, 0, rfl, Is.zero, folded_not_mode_zero s0 (lt_of_lt_of_le (by linarith) (neg_le_abs μ))⟩

/-- C176, violated: the law has a skewness and a kurtosis, but all three methods panic for every parameter. -/
theorem C176_folded_shape_violated (h : FoldedNormal.new mu sigma = .ok d) (_ : mu.Is μ) (hs : sigma.Is s) :
    (∃ k, HasSkew (foldedPDF μ s) k) ∧ (∃ k, HasKurt (foldedPDF μ s) k) ∧
    d.skewness = .error .unimplemented ∧ d.kurtosis = .error .unimplemented ∧ d.excessKurtosis = .error .unimplemented :=
  ⟨(folded_shape (pos_of_lt (FoldedNormal.new_ok.1 h).1 hs)).1, (folded_shape (pos_of_lt (FoldedNormal.new_ok.1 h).1 hs)).2,
    rfl, rfl, rfl⟩

/-- C173: `half_normal(scale)` and `standard()` are the folded normals with location 0 -/
theorem C173_half_normal (h : 0 < sigma) : FoldedNormal.new 0 sigma = .ok (FoldedNormal.halfNormal sigma) ∧
    FoldedNormal.new 0 1 = .ok FoldedNormal.standard :=
  ⟨FoldedNormal.new_ok.2 ⟨h, rfl⟩, FoldedNormal.new_ok.2 ⟨lt_of_pos one_pos Is.one, rfl⟩⟩
end

section
attribute [local instance] exactFP exactFP_exact
/-- non-vacuity: FoldedNormal(3, 2) is accepted and meets the hypotheses of C173, C174, C175 (violated part), C176; FoldedNormal(1, 2)
those of the positive part of C175 -/
example : (∃ d, FoldedNormal.new (F64.fin 3) (F64.fin 2) = .ok d) ∧ (∃ d, FoldedNormal.new (F64.fin 1) (F64.fin 2) = .ok d) ∧
    (F64.fin 3).Is 3 ∧ (F64.fin 2).Is 2 ∧ (2:ℝ) ≤ 3 ∧ -(2:ℝ) ≤ 1 ∧ (1:ℝ) < 2 :=
  ⟨⟨_, FoldedNormal.new_ok.2 ⟨fin_lt_fin.2 (by norm_num), rfl⟩⟩, ⟨_, FoldedNormal.new_ok.2 ⟨fin_lt_fin.2 (by norm_num), rfl⟩⟩,
    Is.fin 3, Is.fin 2, by norm_num, by norm_num, by norm_num⟩
end
end Rstat
