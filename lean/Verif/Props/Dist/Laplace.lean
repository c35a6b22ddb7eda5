import Verif.Model.Dist.Laplace
import Verif.Lemmas.Dist.Laplace
import Verif.Lemmas.DistBase

/-! Property C65: the Laplace law. -/
set_option linter.unusedSectionVars false
namespace Rstat
open F64 Consts Spec MeasureTheory ProbabilityTheory Set

theorem Laplace.new_ok [FP] {a b : F64} {d : Laplace} : Laplace.new a b = .ok d ↔ 0 < b ∧ d = ⟨a, b⟩ := by
  simp only [Laplace.new, exc_bind_ok, Loc.new_ok, Scale.new_ok]
  constructor
  · rintro ⟨_, rfl, _, ⟨h0, rfl⟩, h⟩; exact ⟨h0, by cases h; rfl⟩
  · rintro ⟨h0, rfl⟩; exact ⟨_, rfl, _, ⟨h0, rfl⟩, rfl⟩

section
variable [FP] [FP.Exact] {a b : F64} {m s : ℝ} {d : Laplace}

theorem signum_is {u : F64} {r : ℝ} (hu : u.Is r) :
    u.signum.Is (if r < 0 then -1 else 1) ∨ (r = 0 ∧ u.signum.Is (-1)) := by
  rcases hu with rfl | ⟨rfl, rfl⟩
  · left
    unfold F64.signum
    by_cases hr : r < 0
    · rw [if_pos hr]
      have : (F64.fin r).isNeg := hr
      simp only [this, if_true]; exact Is.fin _
    · rw [if_neg hr]
      have : ¬ (F64.fin r).isNeg := hr
      simp only [this, if_false]; exact Is.one
  · right
    refine ⟨rfl, ?_⟩
    unfold F64.signum
    have : (F64.negZero).isNeg := trivial
    simp only [this, if_true]; exact Is.fin _

/-- what `Laplace::cdf` computes: the density -/
theorem laplace_cdf_is (hs : 0 < s) (ha : d.mu.Is m) (hb : d.b.Is s) {x : F64} {t : ℝ} (hx : x.Is t) :
    (d.cdf x).val.Is (laplacePDF m s t) := by
  unfold Laplace.cdf Probability.newUnchecked laplacePDF
  refine Is.congr (r := Real.exp (-|(|t - m| / s)|) / 2 / s) (by fev) ?_
  rw [abs_of_nonneg (by positivity), neg_div, div_div]

/-- what `Laplace::pdf` computes: the distribution function -/
theorem laplace_pdf_returns (hs : 0 < s) (ha : d.mu.Is m) (hb : d.b.Is s) {x : F64} {t : ℝ} (hx : x.Is t) :
    Returns (d.pdf x) (laplaceCDF m s t) := by
  unfold Laplace.pdf laplaceCDF
  rcases le_or_gt t m with h | h
  · have c : x < d.mu ∨ x.feq d.mu := by
      rcases h.lt_or_eq with h | h
      · exact Or.inl ((hx.lt_iff ha).2 h)
      · exact Or.inr ((hx.feq_iff ha).2 h)
    simp only [c, if_true, h]
    exact ⟨_, rfl, by fev⟩
  · have c : ¬ (x < d.mu ∨ x.feq d.mu) := by
      rintro (h' | h')
      · exact absurd ((hx.lt_iff ha).1 h') (not_lt.2 h.le)
      · exact h.ne' ((hx.feq_iff ha).1 h')
    have c2 : d.mu < x := (ha.lt_iff hx).2 h
    simp only [c, if_false, c2, if_true, not_le.2 h]
    exact ⟨_, rfl, Is.congr (r := 1 - Real.exp ((m - t) / s) / 2) (by fev) (by rw [neg_sub])⟩

/-- C65 (violated): `cdf` and `pdf` are swapped. For every Laplace law, `cdf` computes the density and `pdf` the
distribution function; so `cdf` is not the distribution function, `pdf` is no density at all (of any law), and for
`b < 1/2` `cdf(mu)` is not even a valid probability. -/
theorem C65_laplace_cdf_pdf_swapped_violated (h : Laplace.new a b = .ok d) (ha : a.Is m) (hb : b.Is s) :
    Computes (fun x => (d.cdf x).val) (laplacePDF m s) univ ∧
    (∀ (x : F64) (t : ℝ), x.Is t → Returns (d.pdf x) (laplaceCDF m s t)) ∧
    ¬ Computes (fun x => (d.cdf x).val) (laplaceCDF m s) univ ∧
    (¬ ∃ f F, IsDensityOf f F ∧ ∀ (x : F64) (t : ℝ), x.Is t → Returns (d.pdf x) (f t)) ∧
    (s < 1 / 2 → ¬ (d.cdf d.mu).isValid) := by
  obtain ⟨h0, rfl⟩ := Laplace.new_ok.1 h
  have hs : 0 < s := pos_of_lt h0 hb
  obtain ⟨hF, hD⟩ := laplace_density m hs
  refine ⟨fun x t _ hx => laplace_cdf_is (d := ⟨a, b⟩) hs ha hb hx,
    fun x t hx => laplace_pdf_returns (d := ⟨a, b⟩) hs ha hb hx, fun hc => ?_, ?_, fun hlt hv => ?_⟩
  · have e : ∀ t, laplaceCDF m s t = laplacePDF m s t := fun t =>
      (hc (fin t) t trivial (Is.fin t)).eq (laplace_cdf_is (d := ⟨a, b⟩) hs ha hb (Is.fin t))
    -- at `m + 1` and `m - 1` the density is the same, the distribution function is not
    have e1 := e (m + s)
    have e2 := e (m - s)
    have e3 : laplacePDF m s (m + s) = laplacePDF m s (m - s) := by
      unfold laplacePDF; rw [add_sub_cancel_left, show m - s - m = -s by ring, abs_neg]
    rw [e3, ← e2] at e1
    unfold laplaceCDF at e1
    rw [if_neg (by linarith), if_pos (by linarith), show -(m + s - m) / s = -1 by field_simp; ring,
      show (m - s - m) / s = -1 by field_simp; ring] at e1
    have : Real.exp (-1) < 1 := Real.exp_lt_one_iff.2 (by norm_num)
    linarith
  · rintro ⟨f, F, hf, hr⟩
    have e : f = laplaceCDF m s := funext fun t => by
      obtain ⟨y, hy, h1⟩ := hr (fin t) t (Is.fin t)
      obtain ⟨z, hz, h2⟩ := laplace_pdf_returns (d := ⟨a, b⟩) hs ha hb (Is.fin t)
      rw [hy] at hz; cases hz; exact h1.eq h2
    subst e
    -- a function tending to 1 is not integrable
    have hi := hf.integrable
    have h1 := hF.top
    obtain ⟨R, hR⟩ := (h1.eventually (lt_mem_nhds (show (1/2:ℝ) < 1 by norm_num))).exists_forall_of_atTop
    have hi2 : IntegrableOn (laplaceCDF m s) (Ioi R) := hi.integrableOn
    have hc : IntegrableOn (fun _ : ℝ => (1/2 : ℝ)) (Ioi R) := by
      refine Integrable.mono' hi2 aestronglyMeasurable_const ?_
      filter_upwards [ae_restrict_mem measurableSet_Ioi] with x hx
      rw [Real.norm_of_nonneg (by norm_num)]
      exact (hR x (le_of_lt hx)).le
    rw [integrableOn_const_iff] at hc
    rcases hc with hc | hc
    · norm_num at hc
    · simp at hc
  · have hp := laplace_cdf_is (d := ⟨a, b⟩) hs ha hb ha
    have h1 := (hp.le_iff Is.one).1 hv.1
    unfold laplacePDF at h1
    rw [sub_self, abs_zero, neg_zero, zero_div, Real.exp_zero, div_le_one (by positivity)] at h1
    linarith

/-- C65 (what holds): apart from that swap, the moments, entropy, median and mode are those of the Laplace law (whose
density and distribution function are the swapped methods), and the sampler is its inverse distribution function. -/
theorem C65_laplace_rest_partial (h : Laplace.new a b = .ok d) (ha : a.Is m) (hb : b.Is s) :
    0 < s ∧ IsCDF (laplaceCDF m s) ∧ IsDensityOf (laplacePDF m s) (laplaceCDF m s) ∧
    (∃ μ v, d.mean.Is μ ∧ d.variance.Is v ∧ HasMeanVar (laplacePDF m s) μ v) ∧
    (∃ κ, d.skewness.Is κ ∧ HasSkew (laplacePDF m s) κ) ∧
    (∃ κ, d.kurtosis.Is κ ∧ HasKurt (laplacePDF m s) κ ∧ d.excessKurtosis.Is (κ - 3)) ∧
    (∃ e, d.shannonEntropy.Is e ∧ HasEntropy (laplacePDF m s) e) ∧
    (∃ x, d.median.Is x ∧ laplaceCDF m s x = 1 / 2) ∧
    (∃ y x, d.modes = [y] ∧ y.Is x ∧ IsMode (laplacePDF m s) x) ∧
    (∀ (u : F64) (r : ℝ), u.Is r → -(1/2) < r → r < 1/2 →
      ∃ x, (d.sampleFrom u).Is x ∧ laplaceCDF m s x = r + 1 / 2) := by
  obtain ⟨h0, rfl⟩ := Laplace.new_ok.1 h
  have hs : 0 < s := pos_of_lt h0 hb
  obtain ⟨hF, hD⟩ := laplace_density m hs
  obtain ⟨h1, h2, h3, h4⟩ := laplace_moments m hs
  refine ⟨hs, hF, hD, ⟨m, _, ha, ?_, h1⟩, ⟨0, Is.zero, h2⟩, ⟨6, Is.num 6, h3, ?_⟩, ⟨_, ?_, h4⟩, ⟨m, ha, ?_⟩,
    ⟨a, m, rfl, ha, fun x => ?_⟩, fun u r hu hl hr => ?_⟩
  · unfold Laplace.variance; refine Is.congr (r := 2 * s * s) (by fev) (by ring)
  · exact Is.congr (Is.num 3) (by norm_num)
  · unfold Laplace.shannonEntropy
    have := Real.exp_pos 1
    refine Is.congr (r := Real.log (2 * s * Real.exp 1)) (by fev) ?_
    rw [Real.log_mul (by positivity) (by positivity), Real.log_mul (by positivity) (by positivity), Real.log_exp]; ring
  · unfold laplaceCDF; rw [if_pos le_rfl]; simp
  · unfold laplacePDF
    have : Real.exp (-|x - m| / s) ≤ Real.exp (-|m - m| / s) := by
      rw [Real.exp_le_exp, sub_self, abs_zero, neg_zero, zero_div, neg_div]
      have := div_nonneg (abs_nonneg (x - m)) hs.le
      linarith
    gcongr
  · have hln : 0 < 1 - 2 * |r| := by
      rcases abs_cases r with ⟨h, _⟩ | ⟨h, _⟩ <;> rw [h] <;> linarith
    have key : ∀ σ : ℝ, u.signum.Is σ → (Laplace.sampleFrom ⟨a, b⟩ u).Is (m - s * σ * Real.log (1 - 2 * |r|)) := by
      intro σ hσ
      unfold Laplace.sampleFrom; fev
    have hz : Real.log (1 - 2 * |r|) ≤ 0 := Real.log_nonpos hln.le (by have := abs_nonneg r; linarith)
    rcases signum_is hu with hσ | ⟨rfl, hσ⟩
    · refine ⟨_, key _ hσ, ?_⟩
      by_cases hr0 : r < 0
      · simp only [if_pos hr0]
        unfold laplaceCDF
        rw [if_pos (by nlinarith), show (m - s * -1 * Real.log (1 - 2 * |r|) - m) / s = Real.log (1 - 2 * |r|) by
          field_simp; ring, Real.exp_log hln, abs_of_neg hr0]; ring
      · simp only [if_neg hr0]
        unfold laplaceCDF
        rcases hz.lt_or_eq with hz | hz
        · rw [if_neg (by nlinarith), show -(m - s * 1 * Real.log (1 - 2 * |r|) - m) / s = Real.log (1 - 2 * |r|) by
            field_simp; ring, Real.exp_log hln, abs_of_nonneg (not_lt.1 hr0)]; ring
        · have : r = 0 := by
            have h1 := Real.exp_log hln
            rw [hz, Real.exp_zero] at h1
            exact abs_eq_zero.1 (by linarith)
          subst this
          simp
    · refine ⟨_, key _ hσ, ?_⟩
      unfold laplaceCDF
      simp

end

section
attribute [local instance] exactFP exactFP_exact
example : ∃ d, Laplace.new (fin 1) (fin 3) = .ok d ∧ d.variance.Is 18 := by
  refine ⟨_, Laplace.new_ok.2 ⟨fin_lt_fin.2 (by norm_num), rfl⟩, ?_⟩
  unfold Laplace.variance; refine Is.congr (r := 2 * 3 * 3) (by fev) (by norm_num)
end
end Rstat
