import Verif.Model.Dist.Gumbel
import Verif.Lemmas.Dist.Gumbel
import Verif.Lemmas.DistBase

/-! Property C67: the Gumbel law. -/
set_option linter.unusedSectionVars false
namespace Rstat
open F64 Consts Spec MeasureTheory ProbabilityTheory Set

theorem Gumbel.new_ok [FP] {a b : F64} {d : Gumbel} : Gumbel.new a b = .ok d ↔ 0 < b ∧ d = ⟨a, b⟩ := by
  simp only [Gumbel.new, exc_bind_ok, Loc.new_ok, Scale.new_ok]
  constructor
  · rintro ⟨_, rfl, _, ⟨h0, rfl⟩, h⟩; exact ⟨h0, by cases h; rfl⟩
  · rintro ⟨h0, rfl⟩; exact ⟨_, rfl, _, ⟨h0, rfl⟩, rfl⟩

section
variable [FP] [FP.Exact] {a b : F64} {m s : ℝ} {d : Gumbel}

/-- C67: the Gumbel law, skewness `12√6 ζ(3)/π³` included. -/
theorem C67_gumbel (h : Gumbel.new a b = .ok d) (ha : a.Is m) (hb : b.Is s) :
    0 < s ∧
    Computes (fun x => (d.cdf x).val) (gumbelCDF m s) univ ∧
    Computes d.pdf (gumbelPDF m s) univ ∧
    IsCDF (gumbelCDF m s) ∧ IsDensityOf (gumbelPDF m s) (gumbelCDF m s) ∧
    (∃ μ v, d.mean.Is μ ∧ d.variance.Is v ∧ HasMeanVar (gumbelPDF m s) μ v) ∧
    (∃ κ, d.skewness.Is κ ∧ HasSkew (gumbelPDF m s) κ) ∧
    (∃ κ, d.kurtosis.Is κ ∧ HasKurt (gumbelPDF m s) κ ∧ d.excessKurtosis.Is (κ - 3)) ∧
    (∃ x, d.median.Is x ∧ gumbelCDF m s x = 1 / 2) ∧
    (∃ y x, d.modes = [y] ∧ y.Is x ∧ IsMode (gumbelPDF m s) x) ∧
    (∃ e, d.shannonEntropy.Is e ∧ HasEntropy (gumbelPDF m s) e) := by
  obtain ⟨h0, rfl⟩ := Gumbel.new_ok.1 h
  have hs : 0 < s := pos_of_lt h0 hb
  obtain ⟨hF, hD⟩ := gumbel_density m hs
  obtain ⟨h1, h3, h4⟩ := gumbel_moments m hs
  have hz : ∀ {x : F64} {t : ℝ}, x.Is t → (Gumbel.z ⟨a, b⟩ x).Is ((t - m) / s) := fun hx => by unfold Gumbel.z; fev
  have hlog2 : 0 < Real.log 2 := Real.log_pos one_lt_two
  refine ⟨hs, fun x t _ hx => ?_, fun x t _ hx => ?_, hF, hD, ⟨_, _, ?_, ?_, h1⟩, ⟨_, ?_, gumbel_skew m hs⟩, ⟨_, ?_, h3, ?_⟩,
    ⟨m - s * Real.log (Real.log 2), ?_, ?_⟩, ⟨a, m, rfl, ha, fun x => ?_⟩, ⟨_, ?_, h4⟩⟩
  · unfold Gumbel.cdf Probability.newUnchecked
    dsimp only
    have := hz hx
    refine Is.congr (r := Real.exp (-Real.exp (-((t - m) / s)))) (by fev) ?_
    unfold gumbelCDF; rw [neg_div]
  · unfold Gumbel.pdf
    dsimp only
    have := hz hx
    refine Is.congr (r := Real.exp (-((t - m) / s) - Real.exp (-((t - m) / s))) / s) (by fev) ?_
    unfold gumbelPDF; rw [neg_div, sub_eq_add_neg, Real.exp_add]
  · unfold Gumbel.mean; fev
  · unfold Gumbel.variance
    refine Is.congr (r := Real.pi ^ 2 * s * s / 6) (by fev) (by ring)
  · have hzeta : (F64.riemannZeta 3).Is (Spec.zeta 3) := (Is.num 3).riemannZeta (by norm_num)
    unfold Gumbel.skewness; fev
  · unfold Gumbel.kurtosis; fev
  · unfold Gumbel.excessKurtosis; refine Is.congr (r := 12 / 5) (by fev) (by norm_num)
  · unfold Gumbel.median; fev
  · unfold gumbelCDF
    rw [show -(m - s * Real.log (Real.log 2) - m) / s = Real.log (Real.log 2) by field_simp; ring, Real.exp_log hlog2,
      Real.exp_neg, Real.exp_log two_pos]; norm_num
  · unfold gumbelPDF
    rw [sub_self, neg_zero, zero_div, Real.exp_zero, ← Real.exp_add, one_mul]
    have := Real.add_one_le_exp (-(x - m) / s)
    gcongr; linarith
  · unfold Gumbel.shannonEntropy
    refine Is.congr (r := Real.log s + -Spec.digamma 1 + 1) (by fev) (by ring)

end

section
attribute [local instance] exactFP exactFP_exact
example : ∃ d, Gumbel.new (fin 1) (fin 3) = .ok d ∧ (d.cdf (fin 1)).val.Is (Real.exp (-1)) := by
  refine ⟨_, Gumbel.new_ok.2 ⟨fin_lt_fin.2 (by norm_num), rfl⟩, ?_⟩
  unfold Gumbel.cdf Gumbel.z Probability.newUnchecked
  refine Is.congr (r := Real.exp (-Real.exp (-((1 - 1) / 3)))) (by fev) (by simp)
end
end Rstat
