import Verif.Model.Dist.Cosine
import Verif.Lemmas.Dist.Cosine
import Verif.Lemmas.DistBase
import Mathlib.Analysis.Real.Pi.Bounds

/-! Properties C78, C115, C116: the raised-cosine law. -/
set_option linter.unusedSectionVars false
namespace Rstat
open F64 Consts Spec MeasureTheory Set

theorem Cosine.new_ok [FP] {a b : F64} {d : Cosine} : Cosine.new a b = .ok d ↔ 0 < b ∧ d = ⟨a, b⟩ := by
  simp only [Cosine.new, exc_bind_ok, Loc.new_ok, Scale.new_ok]
  constructor
  · rintro ⟨_, rfl, _, ⟨h0, rfl⟩, h⟩; exact ⟨h0, by cases h; rfl⟩
  · rintro ⟨h0, rfl⟩; exact ⟨_, rfl, _, ⟨h0, rfl⟩, rfl⟩

section
variable [FP] [FP.Exact] {a b : F64} {m s : ℝ} {d : Cosine}

theorem cosine_cdf_is (hs : 0 < s) (ha : a.Is m) (hb : b.Is s) {x : F64} {t : ℝ} (hx : x.Is t) :
    (Cosine.cdf ⟨a, b⟩ x).val.Is (1 / 2 * (1 + (t - m) / s + 1 / Real.pi * Real.sin ((t - m) / s * Real.pi))) := by
  unfold Cosine.cdf Probability.newUnchecked Cosine.z; dsimp only; fev

theorem cosine_pdf_is (hs : 0 < s) (ha : a.Is m) (hb : b.Is s) {x : F64} {t : ℝ} (hx : x.Is t) :
    (Cosine.pdf ⟨a, b⟩ x).Is (1 / 2 * ((Real.cos ((t - m) / s * Real.pi) + 1) / 2)) := by
  unfold Cosine.pdf Cosine.hvc Cosine.z; dsimp only; fev

/-- C78 (what holds): on the support `cdf` is the distribution function of the raised-cosine law; `support` is
`[μ - s, μ + s]`; mean, variance, skewness are its moments, `cdf(median) = 1/2`, and the mode maximises its density. Missing: `pdf`, below. -/
theorem C78_cosine_partial (h : Cosine.new a b = .ok d) (ha : a.Is m) (hb : b.Is s) :
    0 < s ∧
    (d.support.1.Is (m - s) ∧ d.support.2.Is (m + s)) ∧
    Computes (fun x => (d.cdf x).val) (cosineCDF m s) (Icc (m - s) (m + s)) ∧
    IsCDF (cosineCDF m s) ∧ IsDensityOf (cosinePDF m s) (cosineCDF m s) ∧
    (∃ μ v, d.mean.Is μ ∧ d.variance.Is v ∧ HasMeanVar (cosinePDF m s) μ v) ∧
    (∃ κ, d.skewness.Is κ ∧ HasSkew (cosinePDF m s) κ) ∧
    (∃ x, d.median.Is x ∧ cosineCDF m s x = 1 / 2) ∧
    (∃ y x, d.modes = [y] ∧ y.Is x ∧ IsMode (cosinePDF m s) x) := by
  obtain ⟨h0, rfl⟩ := Cosine.new_ok.1 h
  have hs : 0 < s := pos_of_lt h0 hb
  obtain ⟨hF, hD⟩ := cosine_density (m := m) hs
  obtain ⟨hv, mv, sk, -⟩ := cosine_moments m hs
  refine ⟨hs, ⟨ha.sub hb, ha.add hb⟩, fun x t ht hx => ?_, hF, hD, ⟨_, _, ha, ?_, mv⟩, ⟨_, Is.zero, sk⟩, ⟨m, ha, ?_⟩,
    ⟨_, _, rfl, ha, cosine_mode m hs⟩⟩
  · refine (cosine_cdf_is hs ha hb hx).congr ?_
    rw [cosineCDF, if_neg (not_lt.2 ht.1)]
    split_ifs with h
    · have e : t = m + s := le_antisymm ht.2 h
      have e2 : (t - m) / s = 1 := by rw [e]; field_simp; ring
      rw [e2, one_mul, Real.sin_pi]; norm_num
    · rw [mul_comm ((t - m) / s) Real.pi]; ring
  · unfold Cosine.variance
    refine Is.congr (r := s * s * (1 / 3 - 2 / Real.pi ^ 2)) (by fev) (by ring)
  · rw [cosineCDF, if_neg (by linarith), if_neg (by linarith)]; simp

/-- C78 (violated): `pdf` is `s/2` times the density of the law at every point, so it is wrong at every interior point of
the support unless `s = 2`, and its total mass over the support is `s/2`. -/
theorem C78_cosine_pdf_violated (h : Cosine.new a b = .ok d) (ha : a.Is m) (hb : b.Is s) :
    (∀ (x : F64) (t : ℝ), x.Is t → m - s < t → t < m + s →
      ∃ r, (d.pdf x).Is r ∧ r = s / 2 * cosinePDF m s t ∧ (r = cosinePDF m s t ↔ s = 2)) ∧
    Integrable (fun t => s / 2 * cosinePDF m s t) ∧ ∫ t, s / 2 * cosinePDF m s t = s / 2 := by
  obtain ⟨h0, rfl⟩ := Cosine.new_ok.1 h
  have hs : 0 < s := pos_of_lt h0 hb
  obtain ⟨hF, hD⟩ := cosine_density (m := m) hs
  refine ⟨fun x t hx h1 h2 => ⟨_, cosine_pdf_is hs ha hb hx, ?_, ?_⟩, hD.integrable.const_mul _, ?_⟩
  · rw [cosinePDF, if_neg (by push Not; exact ⟨h1, h2⟩), mul_comm ((t - m) / s)]; field_simp; ring
  · have e : 1 / 2 * ((Real.cos ((t - m) / s * Real.pi) + 1) / 2) = s / 2 * cosinePDF m s t := by
      rw [cosinePDF, if_neg (by push Not; exact ⟨h1, h2⟩), mul_comm ((t - m) / s)]; field_simp; ring
    rw [e]
    have hpos : 0 < cosinePDF m s t := by
      rw [cosinePDF, if_neg (by push Not; exact ⟨h1, h2⟩)]
      have hz : |(t - m) / s| < 1 := by
        rw [abs_lt, lt_div_iff₀ hs, div_lt_iff₀ hs]; constructor <;> linarith
      have hc : -1 < Real.cos (Real.pi * ((t - m) / s)) := by
        rw [← Real.cos_abs, abs_mul, abs_of_pos Real.pi_pos, ← Real.cos_pi]
        refine Real.cos_lt_cos_of_nonneg_of_le_pi (by positivity) le_rfl ?_
        nlinarith [Real.pi_pos]
      exact div_pos (by linarith) (by linarith)
    constructor
    · intro e2
      have : (s / 2 - 1) * cosinePDF m s t = 0 := by linarith
      rcases mul_eq_zero.1 this with h | h
      · linarith
      · linarith
    · rintro rfl; ring
  · rw [integral_const_mul, hD.total, mul_one]

/-- C115 (violated): at every point above the support `cdf` exceeds 1 and at every point below it it is negative; neither is a
valid probability. -/
theorem C115_cosine_off_support_violated (h : Cosine.new a b = .ok d) (ha : a.Is m) (hb : b.Is s) :
    (∀ (x : F64) (t : ℝ), x.Is t → m + s < t → cosineCDF m s t = 1 ∧ ∃ r, (d.cdf x).val.Is r ∧ 1 < r ∧ ¬ (d.cdf x).isValid) ∧
    (∀ (x : F64) (t : ℝ), x.Is t → t < m - s → cosineCDF m s t = 0 ∧ ∃ r, (d.cdf x).val.Is r ∧ r < 0 ∧ ¬ (d.cdf x).isValid) := by
  obtain ⟨h0, rfl⟩ := Cosine.new_ok.1 h
  have hs : 0 < s := pos_of_lt h0 hb
  constructor
  · intro x t hx ht
    have hc := cosine_cdf_is hs ha hb hx
    have := cosine_formula_gt (z := (t - m) / s) (by rw [lt_div_iff₀ hs]; linarith)
    refine ⟨by rw [cosineCDF, if_neg (by linarith), if_pos ht.le], _, hc, this, fun hv => ?_⟩
    have := (hc.le_iff Is.one).1 hv.1
    linarith
  · intro x t hx ht
    have hc := cosine_cdf_is hs ha hb hx
    have := cosine_formula_lt (z := (t - m) / s) (by rw [div_lt_iff₀ hs]; linarith)
    refine ⟨by rw [cosineCDF, if_pos ht], _, hc, this, fun hv => ?_⟩
    have := (Is.zero.le_iff hc).1 hv.2
    linarith

/-- C116 (violated): the excess kurtosis of the law is `6(90 - π⁴)/(5(π² - 6)²)`; the code has `60` for `90`. -/
theorem C116_cosine_kurtosis_violated (h : Cosine.new a b = .ok d) (ha : a.Is m) (hb : b.Is s) :
    ∃ r κ, d.excessKurtosis.Is r ∧ HasKurt (cosinePDF m s) κ ∧ r ≠ κ - 3 := by
  obtain ⟨h0, rfl⟩ := Cosine.new_ok.1 h
  have hs : 0 < s := pos_of_lt h0 hb
  obtain ⟨hv, -, -, ku⟩ := cosine_moments m hs
  have h3 : 0 < Real.pi ^ 2 - 6 := by have := Real.pi_gt_three; nlinarith
  refine ⟨6 * (60 - Real.pi ^ 4) / 5 / (Real.pi ^ 2 - 6) / (Real.pi ^ 2 - 6), _, ?_, ku, fun e => ?_⟩
  · unfold Cosine.excessKurtosis; dsimp only
    have := h3.ne'
    fev
  · have hpi := Real.pi_ne_zero
    have e2 : (1:ℝ) / 3 - 2 / Real.pi ^ 2 = (Real.pi ^ 2 - 6) / (3 * Real.pi ^ 2) := by field_simp; ring
    have h3' := h3.ne'
    rw [e2] at e
    field_simp at e
    have hp : 0 < Real.pi ^ 4 := by positivity
    nlinarith

end

section
attribute [local instance] exactFP exactFP_exact
example : ∃ d, Cosine.new (fin 1) (fin 3) = .ok d ∧ (d.cdf (fin 2)).val.Is (cosineCDF 1 3 2) ∧
    (∃ r, (d.cdf (fin 5)).val.Is r ∧ 1 < r) := by
  have h : Cosine.new (fin 1) (fin 3) = .ok ⟨fin 1, fin 3⟩ := Cosine.new_ok.2 ⟨fin_lt_fin.2 (by norm_num), rfl⟩
  refine ⟨_, h, ?_, ?_⟩
  · exact (C78_cosine_partial h (Is.fin _) (Is.fin _)).2.2.1 _ 2 (by constructor <;> norm_num) (Is.fin _)
  · obtain ⟨-, r, h1, h2, -⟩ := (C115_cosine_off_support_violated h (Is.fin _) (Is.fin _)).1 (fin 5) 5 (Is.fin _) (by norm_num)
    exact ⟨r, h1, h2⟩
end
end Rstat
