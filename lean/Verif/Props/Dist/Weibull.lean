import Verif.Model.Dist.Weibull
import Verif.Lemmas.Dist.Weibull
import Verif.Lemmas.DistBase

/-! Properties C70–C71: the Weibull law. -/
set_option linter.unusedSectionVars false
namespace Rstat
open F64 Consts Spec MeasureTheory ProbabilityTheory Set

theorem Weibull.new_ok [FP] {a b : F64} {d : Weibull} : Weibull.new a b = .ok d ↔ 0 < a ∧ 0 < b ∧ d = ⟨a, b⟩ := by
  simp only [Weibull.new, exc_bind_ok, Shape.new_ok, Scale.new_ok]
  constructor
  · rintro ⟨_, ⟨h0, rfl⟩, _, ⟨h1, rfl⟩, h⟩; exact ⟨h0, h1, by cases h; rfl⟩
  · rintro ⟨h0, h1, rfl⟩; exact ⟨_, ⟨h0, rfl⟩, _, ⟨h1, rfl⟩, rfl⟩

theorem rpow_three_halves {v : ℝ} (hv : 0 < v) : v ^ ((3:ℝ) / 2) = Real.sqrt v ^ 3 := by
  rw [Real.sqrt_eq_rpow, ← Real.rpow_natCast, ← Real.rpow_mul hv.le]; norm_num

section
variable [FP] [FP.Exact] {a b : F64} {l k : ℝ} {d : Weibull}

/-- C70: the Weibull law: distribution function (everywhere), density (off the single point 0), moments of all four
orders, median, entropy. -/
theorem C70_weibull (h : Weibull.new a b = .ok d) (ha : a.Is l) (hb : b.Is k) :
    0 < l ∧ 0 < k ∧
    Computes (fun x => (d.cdf x).val) (weibullCDF l k) univ ∧
    Computes d.pdf (weibullPDF l k) {0}ᶜ ∧
    IsCDF (weibullCDF l k) ∧ IsDensityOf (weibullPDF l k) (weibullCDF l k) ∧
    (∃ μ v, d.mean.Is μ ∧ d.variance.Is v ∧ HasMeanVar (weibullPDF l k) μ v) ∧
    (∃ κ, d.skewness.Is κ ∧ HasSkew (weibullPDF l k) κ) ∧
    (∃ κ, HasKurt (weibullPDF l k) κ ∧ d.excessKurtosis.Is (κ - 3)) ∧
    (∃ x, d.median.Is x ∧ weibullCDF l k x = 1 / 2) ∧
    (∃ e, d.shannonEntropy.Is e ∧ HasEntropy (weibullPDF l k) e) := by
  obtain ⟨h0, h1, rfl⟩ := Weibull.new_ok.1 h
  have hl : 0 < l := pos_of_lt h0 ha
  have hk : 0 < k := pos_of_lt h1 hb
  obtain ⟨hF, hD⟩ := weibull_density hl hk
  have hm := weibull_mean hl hk
  have r2 := weibull_raw hl hk 2
  have r3 := weibull_raw hl hk 3
  have r4 := weibull_raw hl hk 4
  simp only [Nat.cast_ofNat] at r2 r3 r4
  obtain ⟨hv, m2, m3, m4⟩ := moments_of_raw hD hm r2 r3 r4
  have hg : ∀ {x : F64} {n : ℝ}, x.Is n → 0 ≤ n → (Weibull.gammaI ⟨a, b⟩ x).Is (Real.Gamma (1 + n / k)) := fun hx hn => by
    unfold Weibull.gammaI; fev
  have g1 := hg Is.one zero_le_one
  have g2 := hg (Is.num 2) zero_le_two
  have g3 := hg (Is.num 3) zero_le_three
  have g4 := hg (Is.num 4) zero_le_four
  have hmean : (Weibull.mean ⟨a, b⟩).Is (l * Real.Gamma (1 + 1 / k)) := by unfold Weibull.mean; fev
  have hvar : (Weibull.variance ⟨a, b⟩).Is (l ^ 2 * Real.Gamma (1 + 2 / k) - (l * Real.Gamma (1 + 1 / k)) ^ 2) := by
    unfold Weibull.variance; dsimp only
    refine Is.congr (r := l * l * (Real.Gamma (1 + 2 / k) - Real.Gamma (1 + 1 / k) * Real.Gamma (1 + 1 / k))) (by fev) (by ring)
  have hgg : 0 < Real.Gamma (1 + 2 / k) - Real.Gamma (1 + 1 / k) ^ 2 := by
    have : l ^ 2 * Real.Gamma (1 + 2 / k) - (l * Real.Gamma (1 + 1 / k)) ^ 2 =
      l ^ 2 * (Real.Gamma (1 + 2 / k) - Real.Gamma (1 + 1 / k) ^ 2) := by ring
    rw [this] at hv
    exact pos_of_mul_pos_right hv (by positivity)
  have hlog2 : 0 < Real.log 2 := Real.log_pos one_lt_two
  refine ⟨hl, hk, fun x t _ hx => ?_, fun x t ht hx => ?_, hF, hD, ⟨_, _, hmean, hvar, m2⟩, ⟨_, ?_, m3⟩, ⟨_, m4, ?_⟩,
    ⟨l * Real.log 2 ^ (1 / k), ?_, ?_⟩, ⟨_, ?_, weibull_entropy hl hk⟩⟩
  · unfold Weibull.cdf weibullCDF
    rcases lt_trichotomy t 0 with h | h | h
    · have c : ¬ (0 : F64) ≤ x := fun hc => absurd ((Is.zero.le_iff hx).1 hc) (not_le.2 h)
      simp only [c, if_false, h.le, if_true]
      exact Is.zero
    · subst h
      have c : (0 : F64) ≤ x := (Is.zero.le_iff hx).2 le_rfl
      simp only [c, if_true, le_refl]
      unfold Probability.newUnchecked
      have hp : ((x / a).powf b).Is 0 :=
        Is.powf_zero (Is.congr (r := 0 / l) (by fev) (by simp)) hb hk
      refine Is.congr (r := 1 - Real.exp (-0)) (by fev) (by simp)
    · have c : (0 : F64) ≤ x := (Is.zero.le_iff hx).2 h.le
      simp only [c, if_true, not_le.2 h, if_false]
      unfold Probability.newUnchecked
      fev
  · unfold Weibull.pdf weibullPDF
    rcases lt_or_gt_of_ne (show t ≠ 0 from ht) with h | h
    · have c : ¬ (0 : F64) ≤ x := fun hc => absurd ((Is.zero.le_iff hx).1 hc) (not_le.2 h)
      simp only [c, if_false, h.le, if_true]
      exact Is.zero
    · have c : (0 : F64) ≤ x := (Is.zero.le_iff hx).2 h.le
      simp only [c, if_true, not_le.2 h, if_false]
      fev
  · unfold Weibull.skewness; dsimp only
    have hpw := Is.powf hvar THREE_HALVES_is hv
    rw [rpow_three_halves hv] at hpw
    have hne : Real.sqrt (l ^ 2 * Real.Gamma (1 + 2 / k) - (l * Real.Gamma (1 + 1 / k)) ^ 2) ^ 3 ≠ 0 :=
      pow_ne_zero _ (Real.sqrt_pos.2 hv).ne'
    refine Is.congr (r := (Real.Gamma (1 + 3 / k) * l * l * l -
      3 * (l * Real.Gamma (1 + 1 / k)) * (l ^ 2 * Real.Gamma (1 + 2 / k) - (l * Real.Gamma (1 + 1 / k)) ^ 2) -
      (l * Real.Gamma (1 + 1 / k)) * (l * Real.Gamma (1 + 1 / k)) * (l * Real.Gamma (1 + 1 / k))) /
      Real.sqrt (l ^ 2 * Real.Gamma (1 + 2 / k) - (l * Real.Gamma (1 + 1 / k)) ^ 2) ^ 3) (Is.div (by fev) hpw hne) ?_
    congr 1
    ring
  · unfold Weibull.excessKurtosis; dsimp only
    have hne : (Real.Gamma (1 + 2 / k) - Real.Gamma (1 + 1 / k) * Real.Gamma (1 + 1 / k)) *
        (Real.Gamma (1 + 2 / k) - Real.Gamma (1 + 1 / k) * Real.Gamma (1 + 1 / k)) ≠ 0 := by
      have h1 : Real.Gamma (1 + 2 / k) - Real.Gamma (1 + 1 / k) * Real.Gamma (1 + 1 / k) ≠ 0 := by
        rw [← sq]; exact hgg.ne'
      exact mul_ne_zero h1 h1
    refine Is.congr (Is.div (r := 12 * (Real.Gamma (1 + 1 / k) * Real.Gamma (1 + 1 / k)) * Real.Gamma (1 + 2 / k) -
      6 * (Real.Gamma (1 + 1 / k) * Real.Gamma (1 + 1 / k)) * (Real.Gamma (1 + 1 / k) * Real.Gamma (1 + 1 / k)) -
      3 * Real.Gamma (1 + 2 / k) * Real.Gamma (1 + 2 / k) - 4 * Real.Gamma (1 + 1 / k) * Real.Gamma (1 + 3 / k) +
      Real.Gamma (1 + 4 / k)) (s := (Real.Gamma (1 + 2 / k) - Real.Gamma (1 + 1 / k) * Real.Gamma (1 + 1 / k)) *
        (Real.Gamma (1 + 2 / k) - Real.Gamma (1 + 1 / k) * Real.Gamma (1 + 1 / k))) (by fev) (by fev) hne) ?_
    generalize Real.Gamma (1 + 1 / k) = G1 at *
    generalize Real.Gamma (1 + 2 / k) = G2 at *
    generalize Real.Gamma (1 + 3 / k) = G3 at *
    generalize Real.Gamma (1 + 4 / k) = G4 at *
    have e : l ^ 2 * G2 - (l * G1) ^ 2 = l ^ 2 * (G2 - G1 ^ 2) := by ring
    rw [e, ← sq G1]
    have n1 : G2 - G1 ^ 2 ≠ 0 := hgg.ne'
    rw [eq_sub_iff_add_eq]
    field_simp
    ring
  · unfold Weibull.median; fev
  · have hp : 0 < l * Real.log 2 ^ (1 / k) := by positivity
    rw [weibullCDF, if_neg (not_le.2 hp), mul_div_cancel_left₀ _ hl.ne', ← Real.rpow_mul hlog2.le,
      show 1 / k * k = 1 by field_simp, Real.rpow_one, Real.exp_neg, Real.exp_log two_pos]; norm_num
  · unfold Weibull.shannonEntropy; dsimp only
    refine Is.congr (r := -Spec.digamma 1 * (1 - 1 / k) + Real.log (l / k) + 1) (by fev) ?_
    rw [Real.log_div hl.ne' hk.ne']; ring

/-- C71 (violated): for every shape `k > 1`, `modes()` returns 0, where the density vanishes. -/
theorem C71_weibull_mode_violated (h : Weibull.new a b = .ok d) (ha : a.Is l) (hb : b.Is k) :
    d.modes = [0] ∧ (1 < k → weibullPDF l k 0 = 0 ∧ ¬ IsMode (weibullPDF l k) 0 ∧
      IsMode (weibullPDF l k) (l * ((k - 1) / k) ^ (1 / k))) := by
  obtain ⟨h0, h1, rfl⟩ := Weibull.new_ok.1 h
  have hl : 0 < l := pos_of_lt h0 ha
  have hk : 0 < k := pos_of_lt h1 hb
  refine ⟨?_, fun hk1 => ?_⟩
  · unfold Weibull.modes; simp only [h1, if_true]
  · have hz : weibullPDF l k 0 = 0 := by rw [weibullPDF, if_pos le_rfl]
    refine ⟨hz, fun hm => ?_, fun x => ?_⟩
    · have := hm l
      rw [hz, weibullPDF, if_neg (not_le.2 hl), div_self hl.ne', Real.one_rpow, Real.one_rpow] at this
      have : 0 < k / l * 1 * Real.exp (-1) := by positivity
      linarith
    · have hc : 0 < (k - 1) / k := div_pos (by linarith) hk
      have hmp : 0 < l * ((k - 1) / k) ^ (1 / k) := by positivity
      have key : ∀ y, 0 < y → weibullPDF l k y =
          k / l * Real.exp ((k - 1) / k * Real.log ((y / l) ^ k) - (y / l) ^ k) := by
        intro y hy
        have hyl : 0 < y / l := div_pos hy hl
        rw [weibullPDF, if_neg (not_le.2 hy), Real.exp_sub, Real.exp_neg, Real.log_rpow hyl,
          show (k - 1) / k * (k * Real.log (y / l)) = Real.log (y / l) * (k - 1) by field_simp, ← Real.rpow_def_of_pos hyl]
        ring
      rcases le_or_gt x 0 with hx | hx
      · rw [weibullPDF, if_pos hx]; exact (weibull_density hl hk).2.nonneg _
      · rw [key x hx, key _ hmp]
        have hw : (l * ((k - 1) / k) ^ (1 / k) / l) ^ k = (k - 1) / k := by
          rw [mul_div_cancel_left₀ _ hl.ne', ← Real.rpow_mul hc.le, show 1 / k * k = 1 by field_simp, Real.rpow_one]
        rw [hw]
        have hwx : 0 < (x / l) ^ k := Real.rpow_pos_of_pos (div_pos hx hl) _
        have hlg := Real.log_le_sub_one_of_pos (div_pos hwx hc)
        rw [Real.log_div hwx.ne' hc.ne'] at hlg
        have := mul_le_mul_of_nonneg_left hlg hc.le
        rw [mul_sub, mul_sub, mul_div_cancel₀ _ hc.ne', mul_one] at this
        exact mul_le_mul_of_nonneg_left (Real.exp_le_exp.2 (by linarith)) (by positivity)

/-- C71 (what holds): for `k ≤ 1` the density decreases on the whole support, so it peaks at its left end, 0. -/
theorem C71_weibull_mode_partial (h : Weibull.new a b = .ok d) (ha : a.Is l) (hb : b.Is k) (hk1 : k ≤ 1) :
    d.modes = [0] ∧ AntitoneOn (weibullPDF l k) (Ioi 0) := by
  refine ⟨(C71_weibull_mode_violated h ha hb).1, ?_⟩
  obtain ⟨h0, h1, rfl⟩ := Weibull.new_ok.1 h
  have hl : 0 < l := pos_of_lt h0 ha
  have hk : 0 < k := pos_of_lt h1 hb
  intro x hx y hy hxy
  have hx : 0 < x := hx
  have hy : 0 < y := hy
  rw [weibullPDF, weibullPDF, if_neg (not_le.2 hx), if_neg (not_le.2 hy)]
  have a1 : (y / l) ^ (k - 1) ≤ (x / l) ^ (k - 1) :=
    Real.rpow_le_rpow_of_nonpos (by positivity) (by gcongr) (by linarith)
  have a2 : (x / l) ^ k ≤ (y / l) ^ k := by gcongr
  have a3 : Real.exp (-(y / l) ^ k) ≤ Real.exp (-(x / l) ^ k) := Real.exp_le_exp.2 (by linarith)
  gcongr

end

section
attribute [local instance] exactFP exactFP_exact
example : ∃ d, Weibull.new (fin 2) (fin 3) = .ok d ∧ d.modes = [0] :=
  ⟨_, Weibull.new_ok.2 ⟨fin_lt_fin.2 (by norm_num), fin_lt_fin.2 (by norm_num), rfl⟩,
    (C71_weibull_mode_violated (Weibull.new_ok.2 ⟨fin_lt_fin.2 (by norm_num), fin_lt_fin.2 (by norm_num), rfl⟩)
      (Is.fin 2) (Is.fin 3)).1⟩
end
end Rstat
