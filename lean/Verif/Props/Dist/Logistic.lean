import Verif.Model.Dist.Logistic
import Verif.Lemmas.Dist.Logistic
import Verif.Lemmas.DistBase

/-! Property C66: the logistic law. -/
set_option linter.unusedSectionVars false
namespace Rstat
open F64 Consts Spec MeasureTheory ProbabilityTheory Set

theorem Logistic.new_ok [FP] {a b : F64} {d : Logistic} : Logistic.new a b = .ok d ↔ 0 < b ∧ d = ⟨a, b⟩ := by
  simp only [Logistic.new, exc_bind_ok, Loc.new_ok, Scale.new_ok]
  constructor
  · rintro ⟨_, rfl, _, ⟨h0, rfl⟩, h⟩; exact ⟨h0, by cases h; rfl⟩
  · rintro ⟨h0, rfl⟩; exact ⟨_, rfl, _, ⟨h0, rfl⟩, rfl⟩

section
variable [FP] [FP.Exact] {a b : F64} {m s : ℝ} {d : Logistic}

/-- C66: the logistic law, with all its moments. -/
theorem C66_logistic (h : Logistic.new a b = .ok d) (ha : a.Is m) (hb : b.Is s) :
    0 < s ∧
    Computes (fun x => (d.cdf x).val) (logisticCDF m s) univ ∧
    Computes d.pdf (logisticPDF m s) univ ∧
    Computes d.z (fun x => (x - m) / s) univ ∧
    IsCDF (logisticCDF m s) ∧ IsDensityOf (logisticPDF m s) (logisticCDF m s) ∧
    (∃ μ v, d.mean.Is μ ∧ d.variance.Is v ∧ HasMeanVar (logisticPDF m s) μ v) ∧
    (∃ κ, d.skewness.Is κ ∧ HasSkew (logisticPDF m s) κ) ∧
    (∃ κ, d.kurtosis.Is κ ∧ HasKurt (logisticPDF m s) κ ∧ d.excessKurtosis.Is (κ - 3)) ∧
    (∃ x, d.median.Is x ∧ logisticCDF m s x = 1 / 2) ∧
    (∃ y x, d.modes = [y] ∧ y.Is x ∧ IsMode (logisticPDF m s) x) ∧
    (∃ e, d.shannonEntropy.Is e ∧ HasEntropy (logisticPDF m s) e) := by
  obtain ⟨h0, rfl⟩ := Logistic.new_ok.1 h
  have hs : 0 < s := pos_of_lt h0 hb
  obtain ⟨hF, hD⟩ := logistic_density m hs
  obtain ⟨h1, h2, h3, h4⟩ := logistic_moments m hs
  have hz : ∀ {x : F64} {t : ℝ}, x.Is t → (Logistic.z ⟨a, b⟩ x).Is ((t - m) / s) := fun hx => by unfold Logistic.z; fev
  refine ⟨hs, fun x t _ hx => ?_, fun x t _ hx => ?_, fun x t _ hx => hz hx, hF, hD, ⟨_, _, ha, ?_, h1⟩, ⟨_, Is.zero, h2⟩, ⟨_, ?_, h3, ?_⟩,
    ⟨m, ha, ?_⟩, ⟨a, m, rfl, ha, fun x => ?_⟩, ⟨_, ?_, h4⟩⟩
  · unfold Logistic.cdf Probability.newUnchecked
    have := hz hx
    refine Is.congr (r := 1 / (1 + Real.exp (-((t - m) / s)))) (by fev) ?_
    unfold logisticCDF; rw [neg_div]
  · unfold Logistic.pdf
    dsimp only
    have := hz hx
    refine Is.congr (r := Real.exp (-((t - m) / s)) / s / (1 + Real.exp (-((t - m) / s))) / (1 + Real.exp (-((t - m) / s)))) (by fev) ?_
    unfold logisticPDF; rw [neg_div, div_div, div_div, sq]
  · unfold Logistic.variance
    refine Is.congr (r := s * s * Real.pi ^ 2 / 3) (by fev) (by ring)
  · unfold Logistic.kurtosis; fev
  · unfold Logistic.excessKurtosis; refine Is.congr (r := 6 / 5) (by fev) (by norm_num)
  · unfold logisticCDF; rw [sub_self, neg_zero, zero_div, Real.exp_zero]; norm_num
  · unfold logisticPDF
    rw [sub_self, neg_zero, zero_div, Real.exp_zero]
    set q := Real.exp (-(x - m) / s) with hq
    have hqp : 0 < q := Real.exp_pos _
    rw [div_le_div_iff₀ (by positivity) (by positivity)]
    nlinarith [sq_nonneg (1 - q), mul_nonneg hs.le (sq_nonneg (1 - q))]
  · unfold Logistic.shannonEntropy
    refine Is.congr (r := Real.log s + 2) (by fev) (by ring)

end

section
attribute [local instance] exactFP exactFP_exact
example : ∃ d, Logistic.new (fin 1) (fin 3) = .ok d ∧ (d.cdf (fin 1)).val.Is (1 / 2) := by
  refine ⟨_, Logistic.new_ok.2 ⟨fin_lt_fin.2 (by norm_num), rfl⟩, ?_⟩
  unfold Logistic.cdf Logistic.z Probability.newUnchecked
  refine Is.congr (r := 1 / (1 + Real.exp (-((1 - 1) / 3)))) (by fev) (by norm_num)
end
end Rstat
