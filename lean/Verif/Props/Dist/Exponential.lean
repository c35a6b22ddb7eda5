import Verif.Model.Dist.Exponential
import Verif.Lemmas.Dist.Exponential
import Verif.Lemmas.DistBase

/-! Properties C61–C64: the exponential law. -/
set_option linter.unusedSectionVars false
namespace Rstat
open F64 Consts Spec MeasureTheory ProbabilityTheory Set

theorem Exponential.new_ok [FP] {a : F64} {d : Exponential} : Exponential.new a = .ok d ↔ 0 < a ∧ d = ⟨a⟩ := by
  simp only [Exponential.new, exc_bind_ok, Rate.new_ok]
  constructor
  · rintro ⟨_, ⟨h0, rfl⟩, h⟩; exact ⟨h0, by cases h; rfl⟩
  · rintro ⟨h0, rfl⟩; exact ⟨_, ⟨h0, rfl⟩, rfl⟩

section
variable [FP] [FP.Exact] {a : F64} {l : ℝ} {d : Exponential}

theorem exp_cdf_is (ha : d.lambda.Is l) {x : F64} {t : ℝ} (hx : x.Is t) : (d.cdf x).val.Is (1 - Real.exp (-(l * t))) := by
  unfold Exponential.cdf Probability.newUnchecked
  refine Is.congr (r := 1 - Real.exp (-l * t)) (by fev) (by rw [neg_mul])
theorem exp_pdf_is (ha : d.lambda.Is l) {x : F64} {t : ℝ} (hx : x.Is t) : (d.pdf x).Is (l * Real.exp (-(l * t))) := by
  unfold Exponential.pdf
  refine Is.congr (r := l * Real.exp (-l * t)) (by fev) (by rw [neg_mul])

/-- C61: on `x >= 0` the exponential law; all moments but the kurtosis (see C64), median, entropy, memorylessness. -/
theorem C61_exponential (h : Exponential.new a = .ok d) (ha : a.Is l) :
    0 < l ∧
    Computes (fun x => (d.cdf x).val) (expCDF l) (Ici 0) ∧
    Computes d.pdf (expPDF l) (Ici 0) ∧
    IsCDF (expCDF l) ∧ IsDensityOf (expPDF l) (expCDF l) ∧ Law (expPDF l) = expMeasure l ∧
    (∃ m v, d.mean.Is m ∧ d.variance.Is v ∧ HasMeanVar (expPDF l) m v) ∧
    (∃ s, d.skewness.Is s ∧ HasSkew (expPDF l) s) ∧
    (∃ x, d.median.Is x ∧ expCDF l x = 1 / 2) ∧
    (∃ e, d.shannonEntropy.Is e ∧ HasEntropy (expPDF l) e) ∧
    (d.modes = [0] ∧ IsMode (expPDF l) 0) ∧
    (∀ s t, 0 ≤ s → 0 ≤ t → 1 - expCDF l (s + t) = (1 - expCDF l s) * (1 - expCDF l t)) := by
  obtain ⟨h0, rfl⟩ := Exponential.new_ok.1 h
  have hl : 0 < l := pos_of_lt h0 ha
  have hF : ∀ t, 0 ≤ t → expCDF l t = 1 - Real.exp (-(l * t)) := by
    intro t ht; unfold expCDF
    split_ifs with h
    · rw [le_antisymm h ht]; simp
    · rfl
  obtain ⟨hmv, hsk, _⟩ := exp_moments hl
  refine ⟨hl, fun x t ht hx => ?_, fun x t ht hx => ?_, (exp_density hl).1, (exp_density hl).2, law_exp l,
    ⟨_, _, ?_, ?_, hmv⟩, ⟨2, Is.num 2, hsk⟩, ⟨1 / l * Real.log 2, ?_, ?_⟩, ⟨_, ?_, exp_entropy hl⟩, ⟨rfl, fun x => ?_⟩,
    fun s t hs ht => ?_⟩
  · rw [hF t ht]; exact exp_cdf_is ha hx
  · rw [expPDF, if_pos (show 0 ≤ t from ht)]; exact exp_pdf_is ha hx
  · unfold Exponential.mean; fev
  · unfold Exponential.variance; refine Is.congr (r := 1 / l / l) (by fev) (by field_simp)
  · unfold Exponential.median Exponential.mean; fev
  · rw [hF _ (by have := Real.log_pos one_lt_two; positivity)]
    rw [show -(l * (1 / l * Real.log 2)) = -Real.log 2 by field_simp, Real.exp_neg, Real.exp_log two_pos]; norm_num
  · unfold Exponential.shannonEntropy; fev
  · unfold expPDF
    rw [if_pos le_rfl]
    split_ifs with hx
    · rw [mul_zero, neg_zero, Real.exp_zero]
      have : Real.exp (-(l * x)) ≤ 1 := Real.exp_le_one_iff.2 (by have := mul_nonneg hl.le hx; linarith)
      nlinarith
    · positivity
  · rw [hF _ (by positivity), hF s hs, hF t ht]
    rw [sub_sub_cancel, sub_sub_cancel, sub_sub_cancel, ← Real.exp_add]; ring_nf

/-- C62 (violated): below the support, for every rate, `cdf` is negative (not a valid probability) and `pdf` positive. -/
theorem C62_exponential_off_support_violated (h : Exponential.new a = .ok d) (ha : a.Is l) {x : F64} {t : ℝ}
    (hx : x.Is t) (ht : t < 0) : (d.cdf x).val < 0 ∧ ¬ (d.cdf x).isValid ∧ 0 < d.pdf x := by
  obtain ⟨h0, rfl⟩ := Exponential.new_ok.1 h
  have hl : 0 < l := pos_of_lt h0 ha
  have hc := exp_cdf_is (d := ⟨a⟩) ha hx
  have hp := exp_pdf_is (d := ⟨a⟩) ha hx
  have hneg : 1 - Real.exp (-(l * t)) < 0 := by
    have : 1 < Real.exp (-(l * t)) := Real.one_lt_exp_iff.2 (by have := mul_neg_of_pos_of_neg hl ht; linarith)
    linarith
  refine ⟨(hc.lt_iff Is.zero).2 hneg, fun hv => ?_, lt_of_pos (by positivity) hp⟩
  have := (Is.zero.le_iff hc).1 hv.2
  linarith

/-- C62 (what holds): on the support `cdf` is a valid probability. -/
theorem C62_exponential_on_support_partial (h : Exponential.new a = .ok d) (ha : a.Is l) {x : F64} {t : ℝ}
    (hx : x.Is t) (ht : 0 ≤ t) : (d.cdf x).isValid := by
  obtain ⟨h0, rfl⟩ := Exponential.new_ok.1 h
  have hl : 0 < l := pos_of_lt h0 ha
  have hc := exp_cdf_is (d := ⟨a⟩) ha hx
  have h1 : Real.exp (-(l * t)) ≤ 1 := Real.exp_le_one_iff.2 (by have := mul_nonneg hl.le ht; linarith)
  exact ⟨(hc.le_iff Is.one).2 (by linarith [Real.exp_pos (-(l * t))]), (Is.zero.le_iff hc).2 (by linarith)⟩

/-- C63 (violated): for every rate and every `p < 1`, `quantile(p)` is negative and `cdf(quantile(p)) < 0`, so it is
never `p`. -/
theorem C63_exponential_quantile_violated (h : Exponential.new a = .ok d) (ha : a.Is l) {q : F64} {p : ℝ}
    (hq : q.Is p) (hp1 : p < 1) : d.quantile ⟨q⟩ < 0 ∧ (d.cdf (d.quantile ⟨q⟩)).val < 0 := by
  have hl : 0 < l := by obtain ⟨h0, rfl⟩ := Exponential.new_ok.1 h; exact pos_of_lt h0 ha
  have hqu : (d.quantile ⟨q⟩).Is (-(1 - p) / l) := by
    obtain ⟨h0, rfl⟩ := Exponential.new_ok.1 h
    unfold Exponential.quantile Probability.not Probability.newUnchecked; fev
  have hneg : -(1 - p) / l < 0 := div_neg_of_neg_of_pos (by linarith) hl
  exact ⟨(hqu.lt_iff Is.zero).2 hneg, (C62_exponential_off_support_violated h ha hqu hneg).1⟩

/-- C63 (what holds): `cdf(median) = 1/2`. -/
theorem C63_exponential_median_partial (h : Exponential.new a = .ok d) (ha : a.Is l) :
    (d.cdf d.median).val.Is (1 / 2) := by
  obtain ⟨h0, hc, _, _, _, _, _, _, ⟨x, hx, hx2⟩, _⟩ := C61_exponential h ha
  have : 0 ≤ x := by
    by_contra hneg
    rw [expCDF, if_pos (not_le.1 hneg).le] at hx2; norm_num at hx2
  rw [← hx2]; exact hc _ x this hx

/-- C64 (violated): `kurtosis()` is never the fourth standardised moment, and the Fisher information is right only at
rate 1. -/
theorem C64_exponential_kurtosis_fisher_violated (h : Exponential.new a = .ok d) (ha : a.Is l) :
    (∀ κ, HasKurt (expPDF l) κ → ¬ d.kurtosis.Is κ) ∧
    (d.fisherInformation.Is (fisher (fun θ : Fin 1 → ℝ => expPDF (θ 0)) (fun _ => l) 0 0) ↔ l = 1) := by
  obtain ⟨h0, rfl⟩ := Exponential.new_ok.1 h
  have hl : 0 < l := pos_of_lt h0 ha
  refine ⟨fun κ hκ hi => ?_, ?_⟩
  · rw [hκ.unique (exp_moments hl).2.2] at hi
    exact absurd (hi.eq (Is.num 3)) (by norm_num)
  · rw [exp_fisher hl]
    have hf : (Exponential.fisherInformation ⟨a⟩).Is (l * l) := by unfold Exponential.fisherInformation; fev
    constructor
    · intro h
      have := h.eq hf
      rw [div_eq_iff (by positivity)] at this
      have h4 : l ^ 4 = 1 := by rw [this]; ring
      exact (pow_eq_one_iff_of_nonneg hl.le (by norm_num)).1 h4
    · rintro rfl; simpa using hf

/-- C64 (what holds): the excess kurtosis, 6, is right. -/
theorem C64_exponential_excess_partial (h : Exponential.new a = .ok d) (ha : a.Is l) :
    ∃ κ, HasKurt (expPDF l) κ ∧ d.excessKurtosis.Is (κ - 3) := by
  obtain ⟨h0, rfl⟩ := Exponential.new_ok.1 h
  have hl : 0 < l := pos_of_lt h0 ha
  exact ⟨9, (exp_moments hl).2.2, Is.congr (r := 6) (Is.num 6) (by norm_num)⟩

end

section
attribute [local instance] exactFP exactFP_exact
example : ∃ d, Exponential.new (fin 2) = .ok d ∧ d.mean.Is (1 / 2) := by
  refine ⟨_, Exponential.new_ok.2 ⟨fin_lt_fin.2 (by norm_num), rfl⟩, ?_⟩
  unfold Exponential.mean; fev
end
end Rstat
