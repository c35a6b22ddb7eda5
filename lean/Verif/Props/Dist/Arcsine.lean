import Verif.Model.Dist.Arcsine
import Verif.Lemmas.Dist.Arcsine
import Verif.Lemmas.DistBase

/-! Properties C57, C58, C107: the arcsine law. -/
set_option linter.unusedSectionVars false
namespace Rstat
open F64 Consts Spec MeasureTheory Set

theorem Arcsine.new_ok [FP] {a b : F64} {d : Arcsine} : Arcsine.new a b = .ok d ↔ 0 < b ∧ d = ⟨a, b⟩ := by
  simp only [Arcsine.new, exc_bind_ok, Loc.new_ok, Scale.new_ok]
  constructor
  · rintro ⟨_, rfl, _, ⟨h0, rfl⟩, h⟩; exact ⟨h0, by cases h; rfl⟩
  · rintro ⟨h0, rfl⟩; exact ⟨_, rfl, _, ⟨h0, rfl⟩, rfl⟩

section
variable [FP] [FP.Exact] {a b : F64} {l w : ℝ} {d : Arcsine}

/-- C57: on its support `[l, l + w]` the arcsine law, with its mean, variance, skewness, kurtosis and median. -/
theorem C57_arcsine (h : Arcsine.new a b = .ok d) (ha : a.Is l) (hb : b.Is w) :
    0 < w ∧
    (∃ u v, d.support = (u, v) ∧ u.Is l ∧ v.Is (l + w)) ∧
    Computes (fun x => (d.cdf x).val) (arcsineCDF l (l + w)) (Icc l (l + w)) ∧
    Computes d.pdf (arcsinePDF l (l + w)) (Ioo l (l + w)) ∧
    IsCDF (arcsineCDF l (l + w)) ∧ IsDensityOf (arcsinePDF l (l + w)) (arcsineCDF l (l + w)) ∧
    (∃ m v, d.mean.Is m ∧ d.variance.Is v ∧ HasMeanVar (arcsinePDF l (l + w)) m v) ∧
    (∃ s, d.skewness.Is s ∧ HasSkew (arcsinePDF l (l + w)) s) ∧
    (∃ κ, d.kurtosis.Is κ ∧ d.excessKurtosis.Is (κ - 3) ∧ HasKurt (arcsinePDF l (l + w)) κ) ∧
    (∃ x, d.median.Is x ∧ arcsineCDF l (l + w) x = 1 / 2) := by
  obtain ⟨h0, rfl⟩ := Arcsine.new_ok.1 h
  have hw : 0 < w := pos_of_lt h0 hb
  have hlw : l < l + w := by linarith
  obtain ⟨hmv, hsk, hku⟩ := arcsine_moments hlw
  have hm : (Arcsine.mean ⟨a, b⟩).Is ((l + (l + w)) / 2) := by unfold Arcsine.mean Arcsine.b; fev
  refine ⟨hw, ⟨_, _, rfl, ha, ha.add hb⟩, fun x t ht hx => ?_, fun x t ht hx => ?_, (arcsine_density hlw).1,
    (arcsine_density hlw).2, ⟨_, _, hm, ?_, hmv⟩, ⟨0, Is.zero, hsk⟩, ⟨3 / 2, THREE_HALVES_is, ?_, hku⟩, ⟨_, hm, ?_⟩⟩
  · have h1 : 0 ≤ t - l := sub_nonneg.2 ht.1
    have h2 : (t - l) / w ≤ 1 := by rw [div_le_one hw]; linarith [ht.2]
    have h3 : 0 ≤ (t - l) / w := by positivity
    have h4 : √((t - l) / w) ≤ 1 := Real.sqrt_le_one.2 h2
    have hc : (Arcsine.cdf ⟨a, b⟩ x).val.Is (2 / Real.pi * Real.arcsin (√((t - l) / w))) := by
      unfold Arcsine.cdf Probability.newUnchecked
      dsimp only
      refine TWO_OVER_PI_is.mul (Is.asin (Is.sqrt ((hx.sub ha).div hb hw.ne') h3) ?_ h4)
      linarith [Real.sqrt_nonneg ((t - l) / w)]
    refine hc.congr ?_
    unfold arcsineCDF
    rw [if_neg (not_lt.2 ht.1), add_sub_cancel_left]
    split_ifs with h5
    · have : t - l = w := by linarith [ht.2]
      rw [this, div_self hw.ne', Real.sqrt_one, Real.arcsin_one]
      have := Real.pi_pos; field_simp
    · rfl
  · have h1 : 0 < t - l := sub_pos.2 ht.1
    have h2 : 0 < l + w - t := sub_pos.2 ht.2
    unfold Arcsine.pdf Arcsine.b arcsinePDF
    rw [if_neg (by push Not; exact ht)]
    dsimp only
    have h3 := Real.sqrt_pos.2 (mul_pos h1 h2)
    refine Is.congr (r := 1 / Real.pi / √((t - l) * (l + w - t))) (by fev) (by rw [div_div])
  · unfold Arcsine.variance
    refine Is.congr (r := w * w / 8) (by fev) (by ring)
  · unfold Arcsine.excessKurtosis
    exact THREE_HALVES_is.neg.congr (by norm_num)
  · unfold arcsineCDF
    rw [if_neg (by linarith), if_neg (by linarith), show ((l + (l + w)) / 2 - l) / (l + w - l) = 1 / 2 by rw [add_sub_cancel_left]; field_simp; ring]
    rw [Real.arcsin_eq_of_sin_eq (x := Real.pi / 4) (by
      rw [Real.sin_pi_div_four, Real.sqrt_div' _ (by norm_num), Real.sqrt_one]
      have := Real.sq_sqrt (show (0 : ℝ) ≤ 2 by norm_num)
      field_simp; linarith) ⟨by linarith [Real.pi_pos], by linarith [Real.pi_pos]⟩]
    have := Real.pi_pos; field_simp; norm_num

/-- C57: the two reported modes are the two ends of the support: exactly the points near which the density exceeds every bound. -/
theorem C57_arcsine_modes (h : Arcsine.new a b = .ok d) (ha : a.Is l) (hb : b.Is w) :
    ∃ m₁ m₂ : F64, ∃ r₁ r₂ : ℝ, d.modes = [m₁, m₂] ∧ m₁.Is r₁ ∧ m₂.Is r₂ ∧
      ∀ r, (r = r₁ ∨ r = r₂) ↔ ∀ M, ∀ ε > 0, ∃ t ∈ Ioo l (l + w), |t - r| < ε ∧ M < arcsinePDF l (l + w) t := by
  obtain ⟨h0, rfl⟩ := Arcsine.new_ok.1 h
  have hw : 0 < w := pos_of_lt h0 hb
  refine ⟨a, _, l, l + w, rfl, ha, ha.add hb, fun r => ⟨fun hr M ε hε => ?_, fun hr => ?_⟩⟩
  · -- a point at distance δ from the end
    have hπ := Real.pi_pos
    obtain ⟨δ, d0, d1, d2, d3⟩ : ∃ δ, 0 < δ ∧ δ < ε ∧ δ < w ∧ M < 1 / (Real.pi * √(δ * (w - δ))) := by
      let K := |M| + 1
      have K0 : 0 < K := by positivity
      refine ⟨Min.min (Min.min (ε / 2) (w / 2)) (1 / (Real.pi ^ 2 * K ^ 2 * w)), ?_, ?_, ?_, ?_⟩
      · positivity
      · exact lt_of_le_of_lt ((min_le_left _ _).trans (min_le_left _ _)) (by linarith)
      · exact lt_of_le_of_lt ((min_le_left _ _).trans (min_le_right _ _)) (by linarith)
      · set δ := Min.min (Min.min (ε / 2) (w / 2)) (1 / (Real.pi ^ 2 * K ^ 2 * w)) with hδ
        have e0 : 0 < δ := by positivity
        have e1 : δ ≤ w / 2 := (min_le_left _ _).trans (min_le_right _ _)
        have e2 : δ ≤ 1 / (Real.pi ^ 2 * K ^ 2 * w) := min_le_right _ _
        have e3 : 0 < δ * (w - δ) := mul_pos e0 (by linarith)
        have e4 : √(δ * (w - δ)) < 1 / (Real.pi * K) := by
          rw [Real.sqrt_lt' (by positivity)]
          calc δ * (w - δ) < δ * w := by nlinarith
            _ ≤ 1 / (Real.pi ^ 2 * K ^ 2 * w) * w := by gcongr
            _ = (1 / (Real.pi * K)) ^ 2 := by field_simp
        have e5 : 0 < √(δ * (w - δ)) := Real.sqrt_pos.2 e3
        have : K < 1 / (Real.pi * √(δ * (w - δ))) := by
          rw [lt_div_iff₀ (by positivity)]
          calc K * (Real.pi * √(δ * (w - δ))) < K * (Real.pi * (1 / (Real.pi * K))) := by gcongr
            _ = 1 := by field_simp
        exact lt_trans (lt_of_le_of_lt (le_abs_self M) (by show |M| < |M| + 1; linarith)) this
    rcases hr with rfl | rfl
    · refine ⟨r + δ, ⟨by linarith, by linarith⟩, by rw [add_sub_cancel_left, abs_of_pos d0]; exact d1, ?_⟩
      unfold arcsinePDF
      rw [if_neg (by push Not; constructor <;> linarith), add_sub_cancel_left, add_sub_add_left_eq_sub]; exact d3
    · refine ⟨l + w - δ, ⟨by linarith, by linarith⟩, by rw [sub_sub_cancel_left, abs_neg, abs_of_pos d0]; exact d1, ?_⟩
      unfold arcsinePDF
      rw [if_neg (by push Not; constructor <;> linarith), show (l + w - δ - l) * (l + w - (l + w - δ)) = δ * (w - δ) by ring]; exact d3
  · by_contra hc
    push Not at hc
    -- away from both ends the density is bounded
    obtain ⟨c1, c2⟩ := hc
    let ρ := Min.min |r - l| |r - (l + w)| / 2
    have ρ0 : 0 < ρ := half_pos (lt_min (abs_pos.2 (sub_ne_zero.2 c1)) (abs_pos.2 (sub_ne_zero.2 c2)))
    obtain ⟨t, ht, h1, h2⟩ := hr (1 / (Real.pi * √(ρ * ρ))) ρ ρ0
    have b1 : ρ ≤ |t - l| := by
      have := abs_sub_abs_le_abs_sub (r - l) (r - t)
      rw [show r - l - (r - t) = t - l by ring, abs_sub_comm r t] at this
      have : 2 * ρ ≤ |r - l| := by show 2 * (_ / 2) ≤ _; rw [mul_div_cancel₀ _ two_ne_zero]; exact min_le_left _ _
      linarith
    have b2 : ρ ≤ |t - (l + w)| := by
      have := abs_sub_abs_le_abs_sub (r - (l + w)) (r - t)
      rw [show r - (l + w) - (r - t) = t - (l + w) by ring, abs_sub_comm r t] at this
      have : 2 * ρ ≤ |r - (l + w)| := by show 2 * (_ / 2) ≤ _; rw [mul_div_cancel₀ _ two_ne_zero]; exact min_le_right _ _
      linarith
    rw [abs_of_pos (sub_pos.2 ht.1)] at b1
    rw [abs_of_neg (sub_neg.2 ht.2), neg_sub] at b2
    have : arcsinePDF l (l + w) t ≤ 1 / (Real.pi * √(ρ * ρ)) := by
      unfold arcsinePDF
      rw [if_neg (by push Not; exact ⟨ht.1, ht.2⟩)]
      have hπ := Real.pi_pos
      have : 0 < √(ρ * ρ) := Real.sqrt_pos.2 (by positivity)
      have : 0 ≤ t - l := ρ0.le.trans b1
      gcongr
    linarith

/-- C58 (violated): the entropy returned ignores the width: it is the differential entropy exactly when the width is 1. -/
theorem C58_arcsine_entropy_violated (h : Arcsine.new a b = .ok d) (ha : a.Is l) (hb : b.Is w) :
    (∃ e, d.shannonEntropy.Is e ∧ HasEntropy (arcsinePDF l (l + w)) e) ↔ w = 1 := by
  obtain ⟨h0, rfl⟩ := Arcsine.new_ok.1 h
  have hw : 0 < w := pos_of_lt h0 hb
  have hlw : l < l + w := by linarith
  have he : (Arcsine.shannonEntropy ⟨a, b⟩).Is (Real.log (Real.pi / 4)) := by
    unfold Arcsine.shannonEntropy; have := Real.pi_pos; fev
  have hE := arcsine_entropy hlw
  rw [add_sub_cancel_left] at hE
  have hp : 0 < Real.pi / 4 := by have := Real.pi_pos; positivity
  constructor
  · rintro ⟨e, h1, h2⟩
    have e1 := h1.eq he
    have e2 := h2.unique hE
    rw [e1, Real.log_mul hp.ne' hw.ne'] at e2
    have : Real.log w = 0 := by linarith
    exact (Real.log_eq_zero.1 this).resolve_left hw.ne' |>.resolve_right (by linarith)
  · rintro rfl
    exact ⟨_, he, by simpa using hE⟩

/-- C58 (what holds): the value returned differs from the differential entropy by exactly `ln w`. -/
theorem C58_arcsine_entropy_partial (h : Arcsine.new a b = .ok d) (ha : a.Is l) (hb : b.Is w) :
    ∃ e, d.shannonEntropy.Is e ∧ HasEntropy (arcsinePDF l (l + w)) (e + Real.log w) := by
  obtain ⟨h0, rfl⟩ := Arcsine.new_ok.1 h
  have hw : 0 < w := pos_of_lt h0 hb
  have hp : 0 < Real.pi / 4 := by have := Real.pi_pos; positivity
  have hE := arcsine_entropy (show l < l + w by linarith)
  rw [add_sub_cancel_left, Real.log_mul hp.ne' hw.ne'] at hE
  exact ⟨_, by unfold Arcsine.shannonEntropy; have := Real.pi_pos; fev, hE⟩

/-- C107 (violated): off the support, for all parameters, `cdf` returns NaN (never 0 or 1), so the returned `Probability`
is not valid; `pdf` is NaN there too. -/
theorem C107_arcsine_off_support_violated (h : Arcsine.new a b = .ok d) (ha : a.Is l) (hb : b.Is w) {x : F64} {t : ℝ}
    (hx : x.Is t) (ht : t < l ∨ l + w < t) : (d.cdf x).val = nan ∧ ¬ (d.cdf x).isValid ∧ d.pdf x = nan := by
  obtain ⟨h0, rfl⟩ := Arcsine.new_ok.1 h
  have hw : 0 < w := pos_of_lt h0 hb
  have hz := (hx.sub ha).div hb hw.ne'
  have hc : (Arcsine.cdf ⟨a, b⟩ x).val = nan := by
    unfold Arcsine.cdf Probability.newUnchecked
    dsimp only
    rcases ht with ht | ht
    · rw [sqrt_neg_nan hz (div_neg_of_neg_of_pos (by linarith) hw)]
      exact mul_nan _
    · have h1 : 1 < (t - l) / w := by rw [lt_div_iff₀ hw]; linarith
      rw [asin_gt_nan (hz.sqrt (by linarith)) (by rw [Real.lt_sqrt (by norm_num)]; simpa using h1)]
      exact mul_nan _
  refine ⟨hc, fun hv => ?_, ?_⟩
  · have := hv.1; rw [hc] at this; exact F64.not_nan_le _ this
  · unfold Arcsine.pdf Arcsine.b
    dsimp only
    rw [sqrt_neg_nan ((hx.sub ha).mul ((ha.add hb).sub hx)), div_nan]
    rcases ht with ht | ht
    · exact mul_neg_of_neg_of_pos (by linarith) (by linarith)
    · exact mul_neg_of_pos_of_neg (by linarith) (by linarith)

/-- C107 (what holds): on the closed support `cdf` is a valid probability. -/
theorem C107_arcsine_on_support_partial (h : Arcsine.new a b = .ok d) (ha : a.Is l) (hb : b.Is w) {x : F64} {t : ℝ}
    (hx : x.Is t) (h1 : l ≤ t) (h2 : t ≤ l + w) : (d.cdf x).isValid := by
  obtain ⟨_, _, hc, _, hF, _⟩ := C57_arcsine h ha hb
  have := hc x t ⟨h1, h2⟩ hx
  exact ⟨(this.le_iff Is.one).2 (hF.le_one t), (Is.zero.le_iff this).2 (hF.nonneg t)⟩

end

section
attribute [local instance] exactFP exactFP_exact
example : ∃ d, Arcsine.new (fin (-1)) (fin 4) = .ok d ∧ d.mean.Is 1 ∧ d.variance.Is 2 := by
  refine ⟨_, Arcsine.new_ok.2 ⟨fin_lt_fin.2 (by norm_num), rfl⟩, ?_, ?_⟩
  · unfold Arcsine.mean Arcsine.b
    refine Is.congr (r := (-1 + (-1 + 4)) / 2) (by fev) (by norm_num)
  · unfold Arcsine.variance
    refine Is.congr (r := 4 * 4 / 8) (by fev) (by norm_num)
end
end Rstat
