import Verif.Model.Dist.GEV
import Verif.Model.Dist.GPD
import Verif.Lemmas.Dist.GEV
import Verif.Lemmas.Dist.Gumbel
import Verif.Lemmas.DistBase
import Verif.Props.Dist.Weibull

/-! Properties C79, C80 (generalised Pareto), C81 (generalised extreme value), C111 (both below the support), C112 (GEV below
its internal switch). -/
set_option linter.unusedSectionVars false
namespace Rstat
open F64 Consts Spec MeasureTheory ProbabilityTheory Set

theorem GeneralisedPareto.new_ok [FP] {a b c : F64} {d : GeneralisedPareto} :
    GeneralisedPareto.new a b c = .ok d ↔ 0 < b ∧ 0 < c ∧ d = ⟨a, b, c⟩ := by
  simp only [GeneralisedPareto.new, exc_bind_ok, Loc.new_ok, Shape.new_ok]
  constructor
  · rintro ⟨_, rfl, _, ⟨h0, rfl⟩, _, ⟨h1, rfl⟩, h⟩; exact ⟨h0, h1, by cases h; rfl⟩
  · rintro ⟨h0, h1, rfl⟩; exact ⟨_, rfl, _, ⟨h0, rfl⟩, _, ⟨h1, rfl⟩, rfl⟩

theorem GeneralisedExtremeValue.new_ok [FP] {a b c : F64} {d : GeneralisedExtremeValue} :
    GeneralisedExtremeValue.new a b c = .ok d ↔ 0 < b ∧ 0 < c ∧ d = ⟨a, b, c⟩ := by
  simp only [GeneralisedExtremeValue.new, exc_bind_ok, Loc.new_ok, Shape.new_ok]
  constructor
  · rintro ⟨_, rfl, _, ⟨h0, rfl⟩, _, ⟨h1, rfl⟩, h⟩; exact ⟨h0, h1, by cases h; rfl⟩
  · rintro ⟨h0, h1, rfl⟩; exact ⟨_, rfl, _, ⟨h0, rfl⟩, _, ⟨h1, rfl⟩, rfl⟩

section
variable [FP] [FP.Exact] {a b c : F64} {m s z : ℝ}

theorem gpd_cdf_is (hs : 0 < s) (hz : 0 < z) (ha : a.Is m) (hb : b.Is s) (hc : c.Is z) {x : F64} {t : ℝ}
    (ht : 0 < 1 + z * ((t - m) / s)) (hx : x.Is t) :
    (GeneralisedPareto.cdf ⟨a, b, c⟩ x).val.Is (1 - (1 + z * ((t - m) / s)) ^ (-1 / z)) := by
  unfold GeneralisedPareto.cdf Probability.newUnchecked; dsimp only; fev

theorem gpd_pdf_is (hs : 0 < s) (hz : 0 < z) (ha : a.Is m) (hb : b.Is s) (hc : c.Is z) {x : F64} {t : ℝ}
    (ht : 0 < 1 + z * ((t - m) / s)) (hx : x.Is t) :
    (GeneralisedPareto.pdf ⟨a, b, c⟩ x).Is ((1 + z * ((t - m) / s)) ^ (-1 / z - 1) / s) := by
  unfold GeneralisedPareto.pdf; dsimp only; fev

/-- C79: on its support `x ≥ mu`, `cdf` and `pdf` are the distribution function and density of the generalised Pareto law;
median and entropy are right. -/
theorem C79_gpd {d : GeneralisedPareto} (h : GeneralisedPareto.new a b c = .ok d) (ha : a.Is m) (hb : b.Is s) (hc : c.Is z) :
    0 < s ∧ 0 < z ∧
    Computes (fun x => (d.cdf x).val) (gpdCDF m s z) (Ici m) ∧
    Computes d.pdf (gpdPDF m s z) (Ici m) ∧
    IsCDF (gpdCDF m s z) ∧ IsDensityOf (gpdPDF m s z) (gpdCDF m s z) ∧
    (∃ x, d.median.Is x ∧ gpdCDF m s z x = 1 / 2) ∧
    (∃ e, d.shannonEntropy.Is e ∧ HasEntropy (gpdPDF m s z) e) := by
  obtain ⟨h0, h1, rfl⟩ := GeneralisedPareto.new_ok.1 h
  have hs : 0 < s := pos_of_lt h0 hb
  have hz : 0 < z := pos_of_lt h1 hc
  obtain ⟨hF, hD⟩ := gpd_density (m := m) hs hz
  refine ⟨hs, hz, fun x t ht hx => ?_, fun x t ht hx => ?_, hF, hD, ⟨m + s * (2 ^ z - 1) / z, ?_, ?_⟩, ⟨_, ?_, gpd_entropy hs hz⟩⟩
  · have ht : m ≤ t := ht
    have hp : 0 ≤ z * ((t - m) / s) := mul_nonneg hz.le (div_nonneg (by linarith) hs.le)
    refine (gpd_cdf_is hs hz ha hb hc (by linarith) hx).congr ?_
    unfold gpdCDF
    rcases ht.eq_or_lt with rfl | ht
    · rw [if_pos le_rfl, sub_self, zero_div, mul_zero, add_zero, Real.one_rpow, sub_self]
    · rw [if_neg (not_le.2 ht)]
  · have ht : m ≤ t := ht
    have hp : 0 ≤ z * ((t - m) / s) := mul_nonneg hz.le (div_nonneg (by linarith) hs.le)
    refine (gpd_pdf_is hs hz ha hb hc (by linarith) hx).congr ?_
    unfold gpdPDF
    rw [if_neg (not_lt.2 ht), show -(1 / z + 1) = -1 / z - 1 by ring]
  · unfold GeneralisedPareto.median; fev
  · have h2 : (1:ℝ) < 2 ^ z := Real.one_lt_rpow one_lt_two hz
    have hgt : m < m + s * (2 ^ z - 1) / z := lt_add_of_pos_right _ (div_pos (mul_pos hs (by linarith)) hz)
    rw [gpdCDF, if_neg (not_le.2 hgt), show 1 + z * ((m + s * (2 ^ z - 1) / z - m) / s) = 2 ^ z by field_simp; ring,
      ← Real.rpow_mul zero_le_two, show z * (-1 / z) = -1 by field_simp, Real.rpow_neg_one]
    norm_num
  · unfold GeneralisedPareto.shannonEntropy; fev

/-- C80 (violated): the guards are the wrong way round. `mean` panics for every shape `ζ ≤ 1`, in particular whenever the
mean exists (`ζ < 1`), and returns a number for every `ζ > 1`, where there is no finite mean; `variance` panics for every
`ζ ≤ 1/2`, in particular whenever the variance exists, and returns for every larger `ζ`, where there is none; the same for
skewness and excess kurtosis. -/
theorem C80_gpd_moment_domain_violated {d : GeneralisedPareto} (h : GeneralisedPareto.new a b c = .ok d)
    (ha : a.Is m) (hb : b.Is s) (hc : c.Is z) :
    (d.mean = .error .undefined ↔ z ≤ 1) ∧ ((∃ μ, HasMean (gpdPDF m s z) μ) ↔ z < 1) ∧
    (d.variance = .error .undefined ↔ z ≤ 1 / 2) ∧ ((∃ μ v, HasMeanVar (gpdPDF m s z) μ v) ↔ z < 1 / 2) ∧
    (d.skewness = .error .undefined ↔ z ≤ 1 / 3) ∧ (1 / 3 ≤ z → ∀ κ, ¬ HasSkew (gpdPDF m s z) κ) ∧
    (d.excessKurtosis = .error .undefined ↔ z ≤ 1 / 3) ∧ (1 / 4 ≤ z → ∀ κ, ¬ HasKurt (gpdPDF m s z) κ) := by
  obtain ⟨h0, h1, rfl⟩ := GeneralisedPareto.new_ok.1 h
  have hs : 0 < s := pos_of_lt h0 hb
  have hz : 0 < z := pos_of_lt h1 hc
  have ite_err : ∀ (p : Prop) [Decidable p] (v : F64), (if p then (Except.error Panic.undefined : Except Panic F64) else .ok v) =
      .error .undefined ↔ p := fun p _ v => by
    by_cases hp : p
    · simp only [hp, if_true]
    · simp only [hp, if_false, iff_false]; intro e; cases e
  refine ⟨?_, ⟨fun ⟨μ, hμ⟩ => ?_, fun h => ⟨_, gpd_mean hs hz h⟩⟩, ?_, ⟨fun ⟨μ, v, hv⟩ => ?_, fun h => ⟨_, _, gpd_var hs hz (by linarith)⟩⟩,
    ?_, ?_, ?_, ?_⟩
  · unfold GeneralisedPareto.mean; rw [ite_err, hc.le_iff Is.one]
  · by_contra hn
    exact gpd_central_infinite hs hz (n := 1) (by push_cast; linarith) 0 μ (hasMean_iff_raw.1 hμ)
  · unfold GeneralisedPareto.variance; rw [ite_err, hc.le_iff (Is.fin _)]
  · by_contra hn
    exact gpd_central_infinite hs hz (n := 2) (by push_cast; linarith) _ _ hv.2
  · unfold GeneralisedPareto.skewness; rw [ite_err, hc.le_iff ONE_THIRD_is]
  · rintro hn κ ⟨c, v, -, -, h3⟩
    exact gpd_central_infinite hs hz (n := 3) (by push_cast; linarith) _ _ h3
  · unfold GeneralisedPareto.excessKurtosis; rw [ite_err, hc.le_iff ONE_THIRD_is]
  · rintro hn κ ⟨c, v, -, -, h4⟩
    exact gpd_central_infinite hs hz (n := 4) (by push_cast; linarith) _ _ h4

/-- C80 (violated), the values returned: where `mean` does return, its answer lies below the whole support; `variance` returns
a negative number; `skewness` is NaN for `ζ > 1/2`, and for `1/3 < ζ ≤ 1/2`, as `excess_kurtosis` for every
`ζ > 1/3`, the textbook expression at a shape where the law has no such moment. -/
theorem C80_gpd_returned_values_violated {d : GeneralisedPareto} (h : GeneralisedPareto.new a b c = .ok d)
    (ha : a.Is m) (hb : b.Is s) (hc : c.Is z) :
    (1 < z → Returns d.mean (m - s / (z - 1)) ∧ m - s / (z - 1) < m) ∧
    (1 / 2 < z → z ≠ 1 → Returns d.variance (s ^ 2 / ((1 - z) ^ 2 * (1 - 2 * z))) ∧ s ^ 2 / ((1 - z) ^ 2 * (1 - 2 * z)) < 0) ∧
    (1 / 3 < z → z ≤ 1 / 2 → Returns d.skewness (2 * (1 + z) * Real.sqrt (1 - 2 * z) / (1 - 3 * z))) ∧
    (1 / 2 < z → d.skewness = .ok nan) ∧
    (1 / 3 < z → Returns d.excessKurtosis (3 * (1 - 2 * z) * (2 * z ^ 2 + z + 3) / ((1 - 3 * z) * (1 - 4 * z)) - 3)) := by
  obtain ⟨h0, h1, rfl⟩ := GeneralisedPareto.new_ok.1 h
  have hs : 0 < s := pos_of_lt h0 hb
  have hz : 0 < z := pos_of_lt h1 hc
  have ret : ∀ (p : Prop) (i : Decidable p) (v : F64) (r : ℝ), ¬ p → v.Is r →
      Returns (if p then (Except.error Panic.undefined : Except Panic F64) else .ok v) r := fun p i v r hp hv => by
    rw [if_neg hp]; exact ⟨v, rfl, hv⟩
  have n1 : 1 < z → ¬ c ≤ 1 := fun hz hh => by have := (hc.le_iff Is.one).1 hh; linarith
  have n2 : 1 / 2 < z → ¬ c ≤ F64.fin (1 / 2) := fun hz hh => by have := (hc.le_iff (Is.fin _)).1 hh; linarith
  have n3 : 1 / 3 < z → ¬ c ≤ ONE_THIRD := fun hz hh => by have := (hc.le_iff ONE_THIRD_is).1 hh; linarith
  refine ⟨fun hz1 => ⟨ret _ _ _ _ (n1 hz1) ?_, ?_⟩, fun hz2 hne => ⟨ret _ _ _ _ (n2 hz2) ?_, ?_⟩,
    fun hz3 hz2 => ret _ _ _ _ (n3 hz3) ?_, fun hz2 => ?_, fun hz3 => ret _ _ _ _ (n3 hz3) ?_⟩
  · have : 1 - z ≠ 0 := by linarith
    refine Is.congr (r := m + s / (1 - z)) (by fev) ?_
    rw [show 1 - z = -(z - 1) by ring, div_neg]; ring
  · have : 0 < s / (z - 1) := div_pos hs (by linarith)
    linarith
  · have e1 : 1 - z ≠ 0 := fun e => hne (by linarith)
    have e2 : 1 - 2 * z ≠ 0 := by linarith
    have e3 : (1 - z) ^ 2 ≠ 0 := pow_ne_zero 2 e1
    refine Is.congr (r := s * s / (1 - z) ^ 2 / (1 - 2 * z)) (by fev) ?_
    rw [div_div, sq s]
  · exact div_neg_of_pos_of_neg (by positivity) (mul_neg_of_pos_of_neg
      (by have : 1 - z ≠ 0 := fun e => hne (by linarith)
          positivity) (by linarith))
  · have e2 : 0 ≤ 1 - 2 * z := by linarith
    have e3 : 1 - 3 * z ≠ 0 := by linarith
    fev
  · unfold GeneralisedPareto.skewness
    rw [if_neg (n3 (by linarith))]
    have h3 : (1 - 2 * c).Is (1 - 2 * z) := by fev
    rw [sqrt_neg_nan h3 (by linarith), mul_nan, nan_div]
  · have e3 : 1 - 3 * z ≠ 0 := by linarith
    have e4 : 1 - 4 * z ≠ 0 := by linarith
    refine Is.congr (r := 3 * (1 - 2 * z) * (2 * z * z + z + 3) / (1 - 3 * z) / (1 - 4 * z) - 3) (by fev) ?_
    rw [div_div]; ring

theorem eps_is : GeneralisedExtremeValue.eps.Is (1 / 10 ^ 7) := Is.lit _

theorem gev_t_is (hs : 0 < s) (hz : 0 < z) (hz7 : 1 / 10 ^ 7 ≤ z) (ha : a.Is m) (hb : b.Is s) (hc : c.Is z) {x : F64} {t : ℝ}
    (ht : 0 < 1 + z * ((t - m) / s)) (hx : x.Is t) :
    (GeneralisedExtremeValue.tFunc ⟨a, b, c⟩ x).Is ((1 + z * ((t - m) / s)) ^ (-1 / z)) := by
  have hc0 : (c - 0).Is (z - 0) := hc.sub Is.zero
  have cc : ¬ (c - 0) < GeneralisedExtremeValue.eps := fun h => by
    have := (hc0.lt_iff eps_is).1 h
    linarith
  unfold GeneralisedExtremeValue.tFunc; dsimp only; simp only [cc, if_false]; fev

/-- C81: for every shape `ζ ≥ 1e-7` (where the code uses the general formula): on the support `x > mu - sigma/ζ`, `cdf` and
`pdf` are the distribution function and density of the generalised extreme value law; mean, variance, skewness and
excess kurtosis are its moments where these exist and `+∞` exactly where they do not; median, mode and entropy are right. -/
theorem C81_gev {d : GeneralisedExtremeValue} (h : GeneralisedExtremeValue.new a b c = .ok d) (ha : a.Is m) (hb : b.Is s)
    (hc : c.Is z) (hz7 : 1 / 10 ^ 7 ≤ z) :
    0 < s ∧
    Computes (fun x => (d.cdf x).val) (gevCDF m s z) (Ioi (m - s / z)) ∧
    Computes d.pdf (gevPDF m s z) (Ioi (m - s / z)) ∧
    IsCDF (gevCDF m s z) ∧ IsDensityOf (gevPDF m s z) (gevCDF m s z) ∧
    (z < 1 → ∃ μ, d.mean.Is μ ∧ HasMean (gevPDF m s z) μ) ∧
    (1 ≤ z → d.mean = pinf ∧ ∀ μ, ¬ HasMean (gevPDF m s z) μ) ∧
    (z < 1 / 2 → ∃ μ v, d.mean.Is μ ∧ d.variance.Is v ∧ HasMeanVar (gevPDF m s z) μ v) ∧
    (1 / 2 ≤ z → d.variance = pinf ∧ ∀ μ v, ¬ HasCentral (gevPDF m s z) μ 2 v) ∧
    (z < 1 / 3 → ∃ κ, d.skewness.Is κ ∧ HasSkew (gevPDF m s z) κ) ∧
    (1 / 3 ≤ z → d.skewness = pinf ∧ ∀ κ, ¬ HasSkew (gevPDF m s z) κ) ∧
    (z < 1 / 4 → ∃ κ, HasKurt (gevPDF m s z) κ ∧ d.excessKurtosis.Is (κ - 3)) ∧
    (1 / 4 ≤ z → d.excessKurtosis = pinf ∧ ∀ κ, ¬ HasKurt (gevPDF m s z) κ) ∧
    (∃ x, d.median.Is x ∧ gevCDF m s z x = 1 / 2) ∧
    (∃ y x, d.modes = [y] ∧ y.Is x ∧ IsMode (gevPDF m s z) x) ∧
    (∃ e, d.shannonEntropy.Is e ∧ HasEntropy (gevPDF m s z) e) := by
  obtain ⟨h0, h1, rfl⟩ := GeneralisedExtremeValue.new_ok.1 h
  have hs : 0 < s := pos_of_lt h0 hb
  have hz : 0 < z := pos_of_lt h1 hc
  obtain ⟨hF, hD⟩ := gev_density (m := m) hs hz
  have cabs : ¬ F64.abs c < GeneralisedExtremeValue.eps := fun hh => by
    have := (hc.abs.lt_iff eps_is).1 hh
    rw [abs_of_pos hz] at this; linarith
  have supp : ∀ t, m - s / z < t → 0 < 1 + z * ((t - m) / s) := fun t ht => by
    rw [← ls_arg hs hz]; exact div_pos (by linarith) (div_pos hs hz)
  have g : ∀ {y : F64} {n : ℝ}, y.Is n → n * z < 1 → (GeneralisedExtremeValue.gFunc ⟨a, b, c⟩ y).Is (Real.Gamma (1 - n * z)) :=
    fun hy hn => by
      have := sub_pos.2 hn
      unfold GeneralisedExtremeValue.gFunc; dsimp only; fev
  have g1 : z < 1 → (GeneralisedExtremeValue.gFunc ⟨a, b, c⟩ 1).Is (Real.Gamma (1 - z)) := fun hh =>
    (g Is.one (by linarith)).congr (by rw [one_mul])
  have g2 : z < 1 / 2 → (GeneralisedExtremeValue.gFunc ⟨a, b, c⟩ 2).Is (Real.Gamma (1 - 2 * z)) := fun hh => g (Is.num 2) (by linarith)
  have g3 : z < 1 / 3 → (GeneralisedExtremeValue.gFunc ⟨a, b, c⟩ 3).Is (Real.Gamma (1 - 3 * z)) := fun hh => g (Is.num 3) (by linarith)
  have g4 : z < 1 / 4 → (GeneralisedExtremeValue.gFunc ⟨a, b, c⟩ 4).Is (Real.Gamma (1 - 4 * z)) := fun hh => g (Is.num 4) (by linarith)
  have hmean : z < 1 → (GeneralisedExtremeValue.mean ⟨a, b, c⟩).Is (m + s * (Real.Gamma (1 - z) - 1) / z) := fun hh => by
    have c1 : ¬ (1 : F64) ≤ c := fun hcc => absurd ((Is.one.le_iff hc).1 hcc) (not_le.2 hh)
    have := g1 hh
    unfold GeneralisedExtremeValue.mean; simp only [c1, cabs, if_false]; fev
  have hlog2 : 0 < Real.log 2 := Real.log_pos one_lt_two
  refine ⟨hs, fun x t ht hx => ?_, fun x t ht hx => ?_, hF, hD, fun h => ⟨_, hmean h, gev_mean hs hz h⟩, fun h => ⟨?_, fun μ hμ => ?_⟩,
    fun h => ⟨_, _, hmean (by linarith), ?_, gev_var hs hz (by linarith)⟩,
    fun h => ⟨?_, fun μ v => gev_central_infinite hs hz (by push_cast; linarith) μ v⟩,
    fun h => ?_, fun h => ⟨?_, ?_⟩, fun h => ?_, fun h => ⟨?_, ?_⟩, ⟨m + s * (Real.log 2 ^ (-z) - 1) / z, ?_, ?_⟩,
    ⟨_, _, rfl, ?_, gev_mode hs hz⟩, ⟨_, ?_, gev_entropy hs hz⟩⟩
  · have := gev_t_is hs hz hz7 ha hb hc (supp t ht) hx
    unfold GeneralisedExtremeValue.cdf Probability.newUnchecked gevCDF
    rw [if_neg (not_le.2 ht)]; fev
  · have hw := supp t ht
    have := gev_t_is hs hz hz7 ha hb hc hw hx
    unfold GeneralisedExtremeValue.pdf gevPDF
    rw [if_neg (not_le.2 ht)]
    refine Is.congr (r := ((1 + z * ((t - m) / s)) ^ (-1 / z)) ^ (z + 1) * Real.exp (-(1 + z * ((t - m) / s)) ^ (-1 / z)) / s)
      (by fev) ?_
    rw [← Real.rpow_mul hw.le, show -1 / z * (z + 1) = -(1 / z + 1) by field_simp; ring]
  · have c1 : (1 : F64) ≤ c := (Is.one.le_iff hc).2 h
    unfold GeneralisedExtremeValue.mean; simp only [c1, if_true]
  · exact gev_central_infinite hs hz (n := 1) (by push_cast; linarith) 0 μ (hasMean_iff_raw.1 hμ)
  · have c1 : ¬ F64.fin (1 / 2) ≤ c := fun hcc => absurd (((Is.fin _).le_iff hc).1 hcc) (not_le.2 h)
    have G1 := g1 (by linarith)
    have G2 := g2 h
    unfold GeneralisedExtremeValue.variance; simp only [c1, cabs, if_false]
    exact Is.congr (r := s * s * (Real.Gamma (1 - 2 * z) - Real.Gamma (1 - z) * Real.Gamma (1 - z)) / z / z) (by fev) (by field_simp)
  · have c1 : F64.fin (1 / 2) ≤ c := ((Is.fin _).le_iff hc).2 h
    unfold GeneralisedExtremeValue.variance; simp only [c1, if_true]
  · obtain ⟨hv, m3⟩ := gev_skew (m := m) hs hz (by linarith)
    refine ⟨_, ?_, m3⟩
    have c1 : ¬ ONE_THIRD ≤ c := fun hcc => absurd ((ONE_THIRD_is.le_iff hc).1 hcc) (not_le.2 h)
    have G1 := g1 (by linarith)
    have G2 := g2 (by linarith)
    have G3 := g3 h
    have hsg : (F64.signum c).Is 1 := by
      rw [hc.eq_fin hz.ne']
      have : ¬ (F64.fin z).isNeg := not_lt.2 hz.le
      unfold F64.signum; simp only [this, if_false]; exact Is.one
    have hv' : 0 < Real.Gamma (1 - 2 * z) - Real.Gamma (1 - z) * Real.Gamma (1 - z) := by rwa [← sq]
    have hden := Is.powf (G2.sub (G1.mul G1)) (show (3 / 2 : F64).Is (3 / 2) by fev) hv'
    rw [rpow_three_halves hv'] at hden
    have G1c := G1.powi 3
    unfold GeneralisedExtremeValue.skewness; simp only [c1, cabs, if_false]
    have hne : Real.sqrt (Real.Gamma (1 - 2 * z) - Real.Gamma (1 - z) * Real.Gamma (1 - z)) ^ 3 ≠ 0 :=
      pow_ne_zero _ (Real.sqrt_pos.2 hv').ne'
    refine Is.congr (r := 1 * (Real.Gamma (1 - 3 * z) - 3 * Real.Gamma (1 - 2 * z) * Real.Gamma (1 - z) +
      2 * Real.Gamma (1 - z) ^ 3) / Real.sqrt (Real.Gamma (1 - 2 * z) - Real.Gamma (1 - z) * Real.Gamma (1 - z)) ^ 3)
      (Is.div (Is.mul hsg (Is.add (by fev) (Is.mul (Is.num 2) G1c))) hden hne) ?_
    rw [← sq (Real.Gamma (1 - z))]
    congr 1; ring
  · have c1 : ONE_THIRD ≤ c := (ONE_THIRD_is.le_iff hc).2 h
    unfold GeneralisedExtremeValue.skewness; simp only [c1, if_true]
  · rintro κ ⟨c, v, -, -, h3⟩
    exact gev_central_infinite hs hz (n := 3) (by push_cast; linarith) _ _ h3
  · obtain ⟨hv, m4⟩ := gev_kurt (m := m) hs hz (by linarith)
    refine ⟨_, m4, ?_⟩
    have c1 : ¬ F64.fin (1 / 4) ≤ c := fun hcc => absurd (((Is.fin _).le_iff hc).1 hcc) (not_le.2 h)
    have G1 := g1 (by linarith)
    have G2 := g2 (by linarith)
    have G3 := g3 (by linarith)
    have G4 := g4 h
    have G1c := G1.powi 4
    have hv' : 0 < Real.Gamma (1 - 2 * z) - Real.Gamma (1 - z) * Real.Gamma (1 - z) := by rwa [← sq]
    unfold GeneralisedExtremeValue.excessKurtosis; simp only [c1, cabs, if_false]
    refine Is.congr (r := (Real.Gamma (1 - 4 * z) - 4 * Real.Gamma (1 - 3 * z) * Real.Gamma (1 - z) -
      3 * Real.Gamma (1 - 2 * z) * Real.Gamma (1 - 2 * z) + 12 * Real.Gamma (1 - 2 * z) * Real.Gamma (1 - z) * Real.Gamma (1 - z) -
      6 * Real.Gamma (1 - z) ^ 4) / (Real.Gamma (1 - 2 * z) - Real.Gamma (1 - z) * Real.Gamma (1 - z)) ^ 2)
      (Is.div (Is.sub (by fev) (Is.mul (Is.num 6) G1c)) (Is.powi2 (G2.sub (G1.mul G1))) (pow_ne_zero _ hv'.ne')) ?_
    rw [← sq (Real.Gamma (1 - z))]
    have := hv.ne'
    clear m4 hv' G1 G2 G3 G4 G1c g1 g2 g3 g4 hmean g
    generalize Real.Gamma (1 - z) = G1 at *
    generalize Real.Gamma (1 - 2 * z) = G2 at *
    generalize Real.Gamma (1 - 3 * z) = G3 at *
    generalize Real.Gamma (1 - 4 * z) = G4 at *
    field_simp
    ring
  · have c1 : F64.fin (1 / 4) ≤ c := ((Is.fin _).le_iff hc).2 h
    unfold GeneralisedExtremeValue.excessKurtosis; simp only [c1, if_true]
  · rintro κ ⟨c, v, -, -, h4⟩
    exact gev_central_infinite hs hz (n := 4) (by push_cast; linarith) _ _ h4
  · unfold GeneralisedExtremeValue.median; simp only [cabs, if_false]; fev
  · have hw : 1 + z * ((m + s * (Real.log 2 ^ (-z) - 1) / z - m) / s) = Real.log 2 ^ (-z) := by field_simp; ring
    have hgt : m - s / z < m + s * (Real.log 2 ^ (-z) - 1) / z := by
      have : 0 < s * Real.log 2 ^ (-z) / z := by positivity
      have e : s * (Real.log 2 ^ (-z) - 1) / z = s * Real.log 2 ^ (-z) / z - s / z := by ring
      rw [e]; linarith
    rw [gevCDF, if_neg (not_le.2 hgt), hw, ← Real.rpow_mul hlog2.le, show -z * (-1 / z) = 1 by field_simp, Real.rpow_one,
      Real.exp_neg, Real.exp_log two_pos]
    norm_num
  · simp only [cabs, if_false]; fev
  · unfold GeneralisedExtremeValue.shannonEntropy; dsimp only
    exact Is.congr (r := Real.log s + -Spec.digamma 1 * z + -Spec.digamma 1 + 1) (by fev) (by ring)

/-- C111 (violated): below the support. Generalised Pareto: at every `x` in `(mu - sigma/ζ, mu)` `cdf` is a negative number
(not a valid probability) and `pdf` is positive. Generalised extreme value with `ζ ≥ 1e-7` and `1/ζ` not an integer: at
every `x < mu - sigma/ζ` `cdf` and `pdf` are NaN. -/
theorem C111_below_support_violated (ha : a.Is m) (hb : b.Is s) (hc : c.Is z) {x : F64} {t : ℝ} (hx : x.Is t) :
    (∀ d, GeneralisedPareto.new a b c = .ok d → m - s / z < t → t < m →
      gpdCDF m s z t = 0 ∧ gpdPDF m s z t = 0 ∧ (∃ r, (d.cdf x).val.Is r ∧ r < 0 ∧ ¬ (d.cdf x).isValid) ∧
      ∃ r, (d.pdf x).Is r ∧ 0 < r) ∧
    (∀ d, GeneralisedExtremeValue.new a b c = .ok d → 1 / 10 ^ 7 ≤ z → ¬ isInt (1 / z) → t < m - s / z →
      gevCDF m s z t = 0 ∧ (d.cdf x).val = nan ∧ d.pdf x = nan ∧ ¬ (d.cdf x).isValid) := by
  constructor
  · intro d h hl hr
    obtain ⟨h0, h1, rfl⟩ := GeneralisedPareto.new_ok.1 h
    have hs : 0 < s := pos_of_lt h0 hb
    have hz : 0 < z := pos_of_lt h1 hc
    have hw : 0 < 1 + z * ((t - m) / s) := by
      rw [← ls_arg hs hz]; exact div_pos (by linarith) (div_pos hs hz)
    have hw1 : 1 + z * ((t - m) / s) < 1 := by
      have : z * ((t - m) / s) < 0 := mul_neg_of_pos_of_neg hz (div_neg_of_neg_of_pos (by linarith) hs)
      linarith
    have hcd := gpd_cdf_is hs hz ha hb hc hw hx
    have hn : 1 - (1 + z * ((t - m) / s)) ^ (-1 / z) < 0 :=
      sub_neg.2 (Real.one_lt_rpow_of_pos_of_lt_one_of_neg hw hw1 (div_neg_of_neg_of_pos (by norm_num) hz))
    refine ⟨by rw [gpdCDF, if_pos hr.le], by rw [gpdPDF, if_pos hr], ⟨_, hcd, hn, fun hv => ?_⟩,
      ⟨_, gpd_pdf_is hs hz ha hb hc hw hx, by positivity⟩⟩
    have := (Is.zero.le_iff hcd).1 hv.2
    linarith
  · intro d h hz7 hi ht
    obtain ⟨h0, h1, rfl⟩ := GeneralisedExtremeValue.new_ok.1 h
    have hs : 0 < s := pos_of_lt h0 hb
    have hz : 0 < z := pos_of_lt h1 hc
    have hw : 1 + z * ((t - m) / s) < 0 := by
      rw [← ls_arg hs hz]; exact div_neg_of_neg_of_pos (by linarith) (div_pos hs hz)
    have hi2 : ¬ isInt (-1 / z) := fun ⟨n, hn⟩ => hi ⟨-n, by push_cast; rw [← hn]; ring⟩
    have hc0 : (c - 0).Is (z - 0) := hc.sub Is.zero
    have cc : ¬ (c - 0) < GeneralisedExtremeValue.eps := fun h => by
      have := (hc0.lt_iff eps_is).1 h
      linarith
    have htn : GeneralisedExtremeValue.tFunc ⟨a, b, c⟩ x = nan := by
      unfold GeneralisedExtremeValue.tFunc; dsimp only; simp only [cc, if_false]
      refine (powf_neg_base (r := 1 + z * ((t - m) / s)) (s := -1 / z) (by fev) (by fev) hw ?_).1 hi2
      exact div_ne_zero (by norm_num) hz.ne'
    have hcn : (GeneralisedExtremeValue.cdf ⟨a, b, c⟩ x).val = nan := by
      unfold GeneralisedExtremeValue.cdf Probability.newUnchecked; rw [htn]; rfl
    refine ⟨by rw [gevCDF, if_pos ht.le], hcn, ?_, fun hv => ?_⟩
    · unfold GeneralisedExtremeValue.pdf; dsimp only
      rw [htn, neg_nan, exp_nan, mul_nan, nan_div]
    · have hv1 := hv.1
      rw [hcn] at hv1
      exact not_nan_le hv1

/-- C112 (violated): for every shape `0 < ζ < 1e-7` the code switches `cdf` to the Gumbel distribution function but keeps the
exponent `ζ + 1` in `pdf`, so at every `x ≠ mu` the returned density is not the derivative of the returned
distribution function. -/
theorem C112_gev_small_shape_violated {d : GeneralisedExtremeValue} (h : GeneralisedExtremeValue.new a b c = .ok d) (ha : a.Is m)
    (hb : b.Is s) (hc : c.Is z) (hz7 : z < 1 / 10 ^ 7) :
    Computes (fun x => (d.cdf x).val) (gumbelCDF m s) univ ∧
    ∀ (x : F64) (t : ℝ), x.Is t → t ≠ m → ∃ r, (d.pdf x).Is r ∧ ¬ HasDerivAt (gumbelCDF m s) r t := by
  obtain ⟨h0, h1, rfl⟩ := GeneralisedExtremeValue.new_ok.1 h
  have hs : 0 < s := pos_of_lt h0 hb
  have hz : 0 < z := pos_of_lt h1 hc
  have hc0 : (c - 0).Is (z - 0) := hc.sub Is.zero
  have cc : (c - 0) < GeneralisedExtremeValue.eps := (hc0.lt_iff eps_is).2 (by linarith)
  have ht : ∀ {x : F64} {t : ℝ}, x.Is t → (GeneralisedExtremeValue.tFunc ⟨a, b, c⟩ x).Is (Real.exp (-((t - m) / s))) := fun hx => by
    unfold GeneralisedExtremeValue.tFunc; dsimp only; simp only [cc, if_true]; fev
  refine ⟨fun x t _ hx => ?_, fun x t hx hne =>
    ⟨Real.exp (-((t - m) / s)) ^ (z + 1) * Real.exp (-Real.exp (-((t - m) / s))) / s, ?_, fun hd => ?_⟩⟩
  · have := ht hx
    unfold GeneralisedExtremeValue.cdf Probability.newUnchecked gumbelCDF; dsimp only
    rw [neg_div]; fev
  · have := ht hx
    unfold GeneralisedExtremeValue.pdf; dsimp only; fev
  · have e := hd.unique (gumbel_hasDerivAt hs t)
    unfold gumbelPDF at e
    rw [neg_div, div_left_inj' hs.ne', mul_left_inj' (Real.exp_ne_zero _), ← Real.exp_mul] at e
    have e := Real.exp_injective e
    have e2 : -((t - m) / s) * z = 0 := by linarith
    rcases mul_eq_zero.1 e2 with h | h
    · rw [neg_eq_zero, div_eq_zero_iff] at h
      rcases h with h | h
      · exact hne (by linarith)
      · exact hs.ne' h
    · exact hz.ne' h

/-- C112 (what holds below the switch): for every shape `0 < ζ < 1e-7` mean, variance, skewness, excess kurtosis, median and
mode are those of the limiting Gumbel law `ζ = 0`, the law whose distribution function `cdf` returns; the entropy is
that of the generalised extreme value law itself; `pdf` is the Gumbel density times the factor `exp(-ζ (x - mu)/sigma)`. Missing: that
factor, see `C112_gev_small_shape_violated`. -/
theorem C112_gev_small_shape_partial {d : GeneralisedExtremeValue} (h : GeneralisedExtremeValue.new a b c = .ok d) (ha : a.Is m)
    (hb : b.Is s) (hc : c.Is z) (hz7 : z < 1 / 10 ^ 7) :
    Computes (fun x => (d.cdf x).val) (gumbelCDF m s) univ ∧
    Computes d.pdf (fun t => gumbelPDF m s t * Real.exp (-z * ((t - m) / s))) univ ∧
    (∃ μ v, d.mean.Is μ ∧ d.variance.Is v ∧ HasMeanVar (gumbelPDF m s) μ v) ∧
    (∃ κ, d.skewness.Is κ ∧ HasSkew (gumbelPDF m s) κ) ∧
    (∃ κ, HasKurt (gumbelPDF m s) κ ∧ d.excessKurtosis.Is (κ - 3)) ∧
    (∃ x, d.median.Is x ∧ gumbelCDF m s x = 1 / 2) ∧
    (∃ y x, d.modes = [y] ∧ y.Is x ∧ IsMode (gumbelPDF m s) x) ∧
    (∃ e, d.shannonEntropy.Is e ∧ HasEntropy (gevPDF m s z) e) := by
  refine ⟨(C112_gev_small_shape_violated h ha hb hc hz7).1, ?_⟩
  obtain ⟨h0, h1, rfl⟩ := GeneralisedExtremeValue.new_ok.1 h
  have hs : 0 < s := pos_of_lt h0 hb
  have hz : 0 < z := pos_of_lt h1 hc
  have hc0 : (c - 0).Is (z - 0) := hc.sub Is.zero
  have cc : (c - 0) < GeneralisedExtremeValue.eps := (hc0.lt_iff eps_is).2 (by linarith)
  have cabs : F64.abs c < GeneralisedExtremeValue.eps := (hc.abs.lt_iff eps_is).2 (by rwa [abs_of_pos hz])
  have ht : ∀ {x : F64} {t : ℝ}, x.Is t → (GeneralisedExtremeValue.tFunc ⟨a, b, c⟩ x).Is (Real.exp (-((t - m) / s))) := fun hx => by
    unfold GeneralisedExtremeValue.tFunc; dsimp only; simp only [cc, if_true]; fev
  have c1 : ¬ (1 : F64) ≤ c := fun hcc => absurd ((Is.one.le_iff hc).1 hcc) (not_le.2 (by linarith))
  have c2 : ¬ F64.fin (1 / 2) ≤ c := fun hcc => absurd (((Is.fin _).le_iff hc).1 hcc) (not_le.2 (by linarith))
  have c3 : ¬ ONE_THIRD ≤ c := fun hcc => absurd ((ONE_THIRD_is.le_iff hc).1 hcc) (not_le.2 (by linarith))
  have c4 : ¬ F64.fin (1 / 4) ≤ c := fun hcc => absurd (((Is.fin _).le_iff hc).1 hcc) (not_le.2 (by linarith))
  obtain ⟨m1, m3, -⟩ := gumbel_moments m hs
  have hlog2 : 0 < Real.log 2 := Real.log_pos one_lt_two
  refine ⟨fun x t _ hx => ?_, ⟨_, _, ?_, ?_, m1⟩, ⟨_, ?_, gumbel_skew m hs⟩, ⟨_, m3, ?_⟩,
    ⟨m - s * Real.log (Real.log 2), ?_, ?_⟩, ⟨_, m, rfl, ?_, fun x => ?_⟩, ⟨_, ?_, gev_entropy hs hz⟩⟩
  · have := ht hx
    unfold GeneralisedExtremeValue.pdf; dsimp only
    refine Is.congr (r := Real.exp (-((t - m) / s)) ^ (z + 1) * Real.exp (-Real.exp (-((t - m) / s))) / s) (by fev) ?_
    unfold gumbelPDF
    rw [← Real.exp_mul, show -((t - m) / s) * (z + 1) = -(t - m) / s + -z * ((t - m) / s) by ring, Real.exp_add, neg_div]
    ring
  · unfold GeneralisedExtremeValue.mean; simp only [c1, cabs, if_false, if_true]
    exact Is.congr (r := m - s * Spec.digamma 1) (by fev) (by ring)
  · unfold GeneralisedExtremeValue.variance; simp only [c2, cabs, if_false, if_true]
    exact Is.congr (r := s * s * (Real.pi ^ 2 / 6)) (by fev) (by ring)
  · have hzeta : (F64.riemannZeta 3).Is (Spec.zeta 3) := (Is.num 3).riemannZeta (by norm_num)
    unfold GeneralisedExtremeValue.skewness; simp only [c3, cabs, if_false, if_true]; fev
  · unfold GeneralisedExtremeValue.excessKurtosis; simp only [c4, cabs, if_false, if_true]
    exact Is.congr (r := 12 / 5) (by fev) (by norm_num)
  · unfold GeneralisedExtremeValue.median; simp only [cabs, if_true]; fev
  · unfold gumbelCDF
    rw [show -(m - s * Real.log (Real.log 2) - m) / s = Real.log (Real.log 2) by field_simp; ring, Real.exp_log hlog2,
      Real.exp_neg, Real.exp_log two_pos]; norm_num
  · simp only [cabs, if_true]; exact ha
  · unfold gumbelPDF
    rw [sub_self, neg_zero, zero_div, Real.exp_zero, ← Real.exp_add, one_mul]
    have := Real.add_one_le_exp (-(x - m) / s)
    gcongr; linarith
  · unfold GeneralisedExtremeValue.shannonEntropy; dsimp only
    exact Is.congr (r := Real.log s + -Spec.digamma 1 * z + -Spec.digamma 1 + 1) (by fev) (by ring)

end

section
attribute [local instance] exactFP exactFP_exact
example : ∃ d, GeneralisedExtremeValue.new (fin 0) (fin 2) (fin (1 / 10 ^ 9)) = .ok d ∧
    d.skewness.Is (12 * Real.sqrt 6 * Spec.zeta 3 / Real.pi ^ 3) := by
  have h : GeneralisedExtremeValue.new (fin 0) (fin 2) (fin (1 / 10 ^ 9)) = .ok ⟨fin 0, fin 2, fin (1 / 10 ^ 9)⟩ :=
    GeneralisedExtremeValue.new_ok.2 ⟨fin_lt_fin.2 (by norm_num), fin_lt_fin.2 (by norm_num), rfl⟩
  obtain ⟨-, -, -, ⟨κ, h2, h3⟩, -⟩ := C112_gev_small_shape_partial h (Is.fin _) (Is.fin _) (Is.fin _) (by norm_num)
  exact ⟨_, h, h2.congr (h3.unique (gumbel_skew 0 two_pos))⟩
example : ∃ d, GeneralisedExtremeValue.new (fin 0) (fin 2) (fin (3/10)) = .ok d ∧ (∃ κ, d.skewness.Is κ) ∧ d.excessKurtosis = pinf := by
  have h : GeneralisedExtremeValue.new (fin 0) (fin 2) (fin (3/10)) = .ok ⟨fin 0, fin 2, fin (3/10)⟩ :=
    GeneralisedExtremeValue.new_ok.2 ⟨fin_lt_fin.2 (by norm_num), fin_lt_fin.2 (by norm_num), rfl⟩
  obtain ⟨-, -, -, -, -, -, -, -, -, hs, -, -, hk, -⟩ := C81_gev h (Is.fin _) (Is.fin _) (Is.fin _) (by norm_num)
  obtain ⟨κ, h2, _⟩ := hs (by norm_num)
  exact ⟨_, h, ⟨κ, h2⟩, (hk (by norm_num)).1⟩
example : ∃ d, GeneralisedPareto.new (fin 0) (fin 2) (fin (3/10)) = .ok d ∧ d.mean = .error .undefined ∧
    ∃ μ, HasMean (gpdPDF 0 2 (3/10)) μ := by
  have h : GeneralisedPareto.new (fin 0) (fin 2) (fin (3/10)) = .ok ⟨fin 0, fin 2, fin (3/10)⟩ :=
    GeneralisedPareto.new_ok.2 ⟨fin_lt_fin.2 (by norm_num), fin_lt_fin.2 (by norm_num), rfl⟩
  obtain ⟨h1, h2, -⟩ := C80_gpd_moment_domain_violated h (Is.fin _) (Is.fin _) (Is.fin _)
  exact ⟨_, h, h1.2 (by norm_num), h2.2 (by norm_num)⟩
end
end Rstat
