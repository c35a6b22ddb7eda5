import Verif.Model.Dist.Frechet
import Verif.Lemmas.Dist.Frechet
import Verif.Lemmas.DistBase

/-! Properties C68, C69, C108: the Fréchet law. -/
set_option linter.unusedSectionVars false
namespace Rstat
open F64 Consts Spec MeasureTheory ProbabilityTheory Set

theorem Frechet.new_ok [FP] {a : F64} {d : Frechet} : Frechet.new a = .ok d ↔ 0 < a ∧ d = ⟨a⟩ := by
  simp only [Frechet.new, exc_bind_ok, Shape.new_ok]
  constructor
  · rintro ⟨_, ⟨h0, rfl⟩, h⟩; exact ⟨h0, by cases h; rfl⟩
  · rintro ⟨h0, rfl⟩; exact ⟨_, ⟨h0, rfl⟩, rfl⟩

section
variable [FP] [FP.Exact] {a : F64} {α : ℝ} {d : Frechet}

theorem frechet_gamma_is (hα : 0 < α) (ha : a.Is α) {y : F64} {n : ℝ} (hy : y.Is n) (hn : n < α) :
    ((1 - y / a).gamma).Is (Real.Gamma (1 - n / α)) := by
  have : 0 < 1 - n / α := by rw [sub_pos, div_lt_one hα]; exact hn
  fev

/-- C68: on `x > 0` `cdf` and `pdf` are the distribution function and density of the Fréchet law; each of mean, variance,
skewness and excess kurtosis is the corresponding moment when it exists, and `+∞` exactly when it does not; median, mode
and entropy are right. -/
theorem C68_frechet (h : Frechet.new a = .ok d) (ha : a.Is α) :
    0 < α ∧
    Computes (fun x => (d.cdf x).val) (frechetCDF α) (Ioi 0) ∧
    Computes d.pdf (frechetPDF α) (Ioi 0) ∧
    IsCDF (frechetCDF α) ∧ IsDensityOf (frechetPDF α) (frechetCDF α) ∧
    (1 < α → ∃ μ, d.mean.Is μ ∧ HasMean (frechetPDF α) μ) ∧
    (α ≤ 1 → d.mean = pinf ∧ ∀ μ, ¬ HasMean (frechetPDF α) μ) ∧
    (2 < α → ∃ μ v, d.mean.Is μ ∧ d.variance.Is v ∧ HasMeanVar (frechetPDF α) μ v) ∧
    (α ≤ 2 → d.variance = pinf ∧ ∀ μ v, ¬ HasCentral (frechetPDF α) μ 2 v) ∧
    (3 < α → ∃ κ, d.skewness.Is κ ∧ HasSkew (frechetPDF α) κ) ∧
    (α ≤ 3 → d.skewness = pinf ∧ ∀ κ, ¬ HasSkew (frechetPDF α) κ) ∧
    (4 < α → ∃ κ, HasKurt (frechetPDF α) κ ∧ d.excessKurtosis.Is (κ - 3)) ∧
    (α ≤ 4 → d.excessKurtosis = pinf ∧ ∀ κ, ¬ HasKurt (frechetPDF α) κ) ∧
    (∃ x, d.median.Is x ∧ frechetCDF α x = 1 / 2) ∧
    (∃ y x, d.modes = [y] ∧ y.Is x ∧ IsMode (frechetPDF α) x) ∧
    (∃ e, d.shannonEntropy.Is e ∧ HasEntropy (frechetPDF α) e) := by
  obtain ⟨h0, rfl⟩ := Frechet.new_ok.1 h
  have hα : 0 < α := pos_of_lt h0 ha
  obtain ⟨hF, hD⟩ := frechet_density hα
  have g1 : 1 < α → ((1 - 1 / a).gamma).Is (Real.Gamma (1 - 1 / α)) := frechet_gamma_is hα ha Is.one
  have g2 : 2 < α → ((1 - 2 / a).gamma).Is (Real.Gamma (1 - 2 / α)) := frechet_gamma_is hα ha (Is.num 2)
  have g3 : 3 < α → ((1 - 3 / a).gamma).Is (Real.Gamma (1 - 3 / α)) := frechet_gamma_is hα ha (Is.num 3)
  have g4 : 4 < α → ((1 - 4 / a).gamma).Is (Real.Gamma (1 - 4 / α)) := frechet_gamma_is hα ha (Is.num 4)
  have r1 : 1 < α → HasMean (frechetPDF α) (Real.Gamma (1 - 1 / α)) := fun h => by
    have := frechet_raw hα (n := 1) (by exact_mod_cast h)
    rw [Nat.cast_one] at this
    exact hasMean_iff_raw.2 this
  have r2 : 2 < α → HasCentral (frechetPDF α) 0 2 (Real.Gamma (1 - 2 / α)) := fun h => by
    have := frechet_raw hα (n := 2) (by exact_mod_cast h)
    rwa [Nat.cast_ofNat] at this
  have r3 : 3 < α → HasCentral (frechetPDF α) 0 3 (Real.Gamma (1 - 3 / α)) := fun h => by
    have := frechet_raw hα (n := 3) (by exact_mod_cast h)
    rwa [Nat.cast_ofNat] at this
  have r4 : 4 < α → HasCentral (frechetPDF α) 0 4 (Real.Gamma (1 - 4 / α)) := fun h => by
    have := frechet_raw hα (n := 4) (by exact_mod_cast h)
    rwa [Nat.cast_ofNat] at this
  have hmean : 1 < α → (Frechet.mean ⟨a⟩).Is (Real.Gamma (1 - 1 / α)) := fun h => by
    have c : ¬ a ≤ 1 := fun hc => absurd ((ha.le_iff Is.one).1 hc) (not_le.2 h)
    unfold Frechet.mean; simp only [c, if_false]; exact g1 h
  have hlog2 : 0 < Real.log 2 := Real.log_pos one_lt_two
  refine ⟨hα, fun x t ht hx => ?_, fun x t ht hx => ?_, hF, hD, fun h => ⟨_, hmean h, r1 h⟩, fun h => ⟨?_, fun μ hm => ?_⟩,
    fun h => ⟨_, _, hmean (by linarith), ?_, r1 (by linarith), central2 hD.integrable hD.total (r1 (by linarith)) (r2 h)⟩,
    fun h => ⟨?_, fun μ v => frechet_central_infinite hα (by exact_mod_cast h) μ v⟩,
    fun h => ?_, fun h => ⟨?_, ?_⟩, fun h => ?_, fun h => ⟨?_, ?_⟩, ⟨1 / Real.log 2 ^ (1 / α), ?_, ?_⟩, ⟨_, _, rfl, ?_, frechet_mode hα⟩, ⟨_, ?_, frechet_entropy hα⟩⟩
  · have ht : 0 < t := ht
    unfold Frechet.cdf Probability.newUnchecked frechetCDF
    rw [if_neg (not_le.2 ht)]; fev
  · have ht : 0 < t := ht
    unfold Frechet.pdf Frechet.cdf Probability.newUnchecked Probability.unwrap frechetPDF
    dsimp only
    rw [if_neg (not_le.2 ht)]; fev
  · have c : a ≤ 1 := (ha.le_iff Is.one).2 h
    unfold Frechet.mean; simp only [c, if_true]
  · have := frechet_central_infinite hα (n := 1) (by exact_mod_cast h) 0 μ
    exact this (hasMean_iff_raw.1 hm)
  · have c : ¬ a ≤ 2 := fun hc => absurd ((ha.le_iff (Is.num 2)).1 hc) (not_le.2 h)
    have G1 := g1 (by linarith)
    have G2 := g2 h
    unfold Frechet.variance; simp only [c, if_false]
    exact Is.congr (r := Real.Gamma (1 - 2 / α) - Real.Gamma (1 - 1 / α) * Real.Gamma (1 - 1 / α)) (by fev) (by ring)
  · have c : a ≤ 2 := (ha.le_iff (Is.num 2)).2 h
    unfold Frechet.variance; simp only [c, if_true]
  · obtain ⟨hv, -, m3⟩ := skew_of_raw hD (r1 (by linarith)) (r2 (by linarith)) (r3 h)
    refine ⟨_, ?_, m3⟩
    have c : ¬ a ≤ 3 := fun hc => absurd ((ha.le_iff (Is.num 3)).1 hc) (not_le.2 h)
    have G1 := g1 (by linarith)
    have G2 := g2 (by linarith)
    have G3 := g3 h
    unfold Frechet.skewness; simp only [c, if_false]
    have hv' : 0 < Real.Gamma (1 - 2 / α) - Real.Gamma (1 - 1 / α) * Real.Gamma (1 - 1 / α) := by rwa [← sq]
    refine Is.congr (r := (Real.Gamma (1 - 3 / α) - 3 * Real.Gamma (1 - 2 / α) * Real.Gamma (1 - 1 / α) +
      2 * Real.Gamma (1 - 1 / α) * Real.Gamma (1 - 1 / α) * Real.Gamma (1 - 1 / α)) /
      Real.sqrt ((Real.Gamma (1 - 2 / α) - Real.Gamma (1 - 1 / α) * Real.Gamma (1 - 1 / α)) *
        (Real.Gamma (1 - 2 / α) - Real.Gamma (1 - 1 / α) * Real.Gamma (1 - 1 / α)) *
        (Real.Gamma (1 - 2 / α) - Real.Gamma (1 - 1 / α) * Real.Gamma (1 - 1 / α))))
        (Is.div (by fev) (Is.sqrt (by fev) (by positivity)) (Real.sqrt_pos.2 (by positivity)).ne') ?_
    congr 1
    · ring
    · rw [← sq (Real.Gamma (1 - 1 / α))]
      generalize Real.Gamma (1 - 2 / α) - Real.Gamma (1 - 1 / α) ^ 2 = v at hv
      rw [← Real.sqrt_mul_self hv.le, Real.sqrt_mul_self hv.le, Real.sqrt_mul (by positivity), Real.sqrt_mul_self hv.le]
      nth_rw 1 [← Real.mul_self_sqrt hv.le]; ring
  · have c : a ≤ 3 := (ha.le_iff (Is.num 3)).2 h
    unfold Frechet.skewness; simp only [c, if_true]
  · rintro κ ⟨m, v, -, -, h3⟩
    exact frechet_central_infinite hα (n := 3) (by exact_mod_cast h) _ _ h3
  · obtain ⟨hv, -, -, m4⟩ := moments_of_raw hD (r1 (by linarith)) (r2 (by linarith)) (r3 (by linarith)) (r4 h)
    refine ⟨_, m4, ?_⟩
    have c : ¬ a ≤ 4 := fun hc => absurd ((ha.le_iff (Is.num 4)).1 hc) (not_le.2 h)
    have G1 := g1 (by linarith)
    have G2 := g2 (by linarith)
    have G3 := g3 (by linarith)
    have G4 := g4 h
    unfold Frechet.excessKurtosis; simp only [c, if_false]
    have hv' : 0 < Real.Gamma (1 - 2 / α) - Real.Gamma (1 - 1 / α) * Real.Gamma (1 - 1 / α) := by rwa [← sq]
    refine Is.congr (r := (Real.Gamma (1 - 4 / α) - 4 * Real.Gamma (1 - 3 / α) * Real.Gamma (1 - 1 / α) +
      3 * Real.Gamma (1 - 2 / α) * Real.Gamma (1 - 2 / α)) /
      ((Real.Gamma (1 - 2 / α) - Real.Gamma (1 - 1 / α) * Real.Gamma (1 - 1 / α)) *
        (Real.Gamma (1 - 2 / α) - Real.Gamma (1 - 1 / α) * Real.Gamma (1 - 1 / α))) - 6)
        (Is.sub (Is.div (by fev) (by fev) (by positivity)) (Is.num 6)) ?_
    rw [← sq (Real.Gamma (1 - 1 / α))]
    have := hv.ne'
    clear m4 hv' G1 G2 G3 G4 r1 r2 r3 r4 g1 g2 g3 g4 hmean
    generalize Real.Gamma (1 - 1 / α) = G1 at *
    generalize Real.Gamma (1 - 2 / α) = G2 at *
    generalize Real.Gamma (1 - 3 / α) = G3 at *
    generalize Real.Gamma (1 - 4 / α) = G4 at *
    field_simp
    ring
  · have c : a ≤ 4 := (ha.le_iff (Is.num 4)).2 h
    unfold Frechet.excessKurtosis; simp only [c, if_true]
  · rintro κ ⟨m, v, -, -, h4⟩
    exact frechet_central_infinite hα (n := 4) (by exact_mod_cast h) _ _ h4
  · unfold Frechet.median
    exact (Is.one.div (Is.powf (Is.ln (Is.num 2) two_pos) (Is.one.div ha hα.ne') hlog2) (Real.rpow_pos_of_pos hlog2 _).ne')
  · have hp : 0 < 1 / Real.log 2 ^ (1 / α) := by positivity
    rw [frechetCDF, if_neg (not_le.2 hp), one_div, ← Real.rpow_neg hlog2.le, ← Real.rpow_mul hlog2.le,
      show -(1 / α) * -α = 1 by field_simp, Real.rpow_one, Real.exp_neg, Real.exp_log two_pos]; norm_num
  · fev
  · unfold Frechet.shannonEntropy; dsimp only
    refine Is.congr (r := 1 + -Spec.digamma 1 / α + -Spec.digamma 1 + Real.log (1 / α)) (by fev) ?_
    rw [one_div, Real.log_inv]; ring

/-- C69 (violated): fed a uniform draw `u`, the sampler returns `(-ln u)^(1/α)`, whose law is the *Weibull* law with
scale 1 and shape `α`, not the Fréchet law: for every `u` in `(0,1)` the Weibull distribution function at the sample is
`1 - u`, while the Fréchet distribution function at the sample equals `u` only for the single value `u = 1/e`. -/
theorem C69_frechet_sampling_violated (h : Frechet.new a = .ok d) (ha : a.Is α) :
    (∀ (u : F64) (r : ℝ), u.Is r → 0 < r → r < 1 → ∃ x, (d.sampleFrom u).Is x ∧
      weibullCDF 1 α x = 1 - r ∧ frechetCDF α x = Real.exp (1 / Real.log r) ∧
      (frechetCDF α x = r ↔ r = Real.exp (-1))) ∧
    frechetCDF α ≠ weibullCDF 1 α := by
  obtain ⟨h0, rfl⟩ := Frechet.new_ok.1 h
  have hα : 0 < α := pos_of_lt h0 ha
  refine ⟨fun u r hu h0 h1 => ⟨(-Real.log r) ^ (1 / α), ?_, ?_, ?_⟩, fun e => ?_⟩
  · have hl : 0 < -Real.log r := neg_pos.2 (Real.log_neg h0 h1)
    unfold Frechet.sampleFrom; fev
  · have hl : 0 < -Real.log r := neg_pos.2 (Real.log_neg h0 h1)
    have hp : 0 < (-Real.log r) ^ (1 / α) := by positivity
    rw [weibullCDF, if_neg (not_le.2 hp), div_one, ← Real.rpow_mul hl.le, show 1 / α * α = 1 by field_simp, Real.rpow_one,
      neg_neg, Real.exp_log h0]
  · have hl : 0 < -Real.log r := neg_pos.2 (Real.log_neg h0 h1)
    have hp : 0 < (-Real.log r) ^ (1 / α) := by positivity
    have e : frechetCDF α ((-Real.log r) ^ (1 / α)) = Real.exp (1 / Real.log r) := by
      rw [frechetCDF, if_neg (not_le.2 hp), ← Real.rpow_mul hl.le, show 1 / α * -α = -1 by field_simp, Real.rpow_neg_one]
      congr 1
      rw [inv_neg, neg_neg, one_div]
    refine ⟨e, ?_⟩
    rw [e]
    constructor
    · intro h
      have h2 := congrArg Real.log h
      rw [Real.log_exp, div_eq_iff (by linarith)] at h2
      have : Real.log r = -1 := by nlinarith
      rw [← this, Real.exp_log h0]
    · intro h
      rw [h, Real.log_exp]; norm_num
  · have := congrFun e 1
    rw [frechetCDF, weibullCDF, if_neg (by norm_num), if_neg (by norm_num), div_one, Real.one_rpow, Real.one_rpow] at this
    have h2 : Real.exp (-1) * 2 = 1 := by linarith
    have h3 : Real.exp 1 = 2 := by
      rw [Real.exp_neg] at h2; field_simp at h2; exact h2.symm
    have := Real.exp_one_gt_d9
    linarith

/-- C108 (violated): below the support no value of `cdf` is 0: at every `x < 0` it is NaN (non-integer shape), a number
strictly between 0 and 1 (even integer shape), or a number above 1 (odd integer shape; then not a valid probability). -/
theorem C108_frechet_below_support_violated (h : Frechet.new a = .ok d) (ha : a.Is α) {x : F64} {t : ℝ} (hx : x.Is t)
    (ht : t < 0) : frechetCDF α t = 0 ∧ ¬ (d.cdf x).val.Is 0 ∧
    (¬ isInt α → (d.cdf x).val = nan ∧ d.pdf x = nan ∧ ¬ (d.cdf x).isValid) ∧
    (isOdd α → ∃ r, (d.cdf x).val.Is r ∧ 1 < r ∧ ¬ (d.cdf x).isValid) ∧
    (isInt α → ¬ isOdd α → ∃ r, (d.cdf x).val.Is r ∧ 0 < r ∧ r < 1) := by
  obtain ⟨h0, rfl⟩ := Frechet.new_ok.1 h
  have hα : 0 < α := pos_of_lt h0 ha
  obtain ⟨p1, p2, p3⟩ := powf_neg_base hx ha.neg ht (by linarith)
  have i1 : isInt (-α) ↔ isInt α := ⟨fun ⟨n, hn⟩ => ⟨-n, by push_cast; linarith⟩, fun ⟨n, hn⟩ => ⟨-n, by push_cast; linarith⟩⟩
  have i2 : isOdd (-α) ↔ isOdd α :=
    ⟨fun ⟨n, hn, ho⟩ => ⟨-n, by push_cast; linarith, ho.neg⟩, fun ⟨n, hn, ho⟩ => ⟨-n, by push_cast; linarith, ho.neg⟩⟩
  have io : isOdd α → isInt α := fun ⟨n, hn, _⟩ => ⟨n, hn⟩
  rw [i1] at p1
  rw [i1, i2] at p2 p3
  have hp : 0 < (-t) ^ (-α) := Real.rpow_pos_of_pos (by linarith) _
  have q1 : ¬ isInt α → (Frechet.cdf ⟨a⟩ x).val = nan := fun hi => by
    unfold Frechet.cdf Probability.newUnchecked; dsimp only; rw [p1 hi]; rfl
  have q2 : isInt α → isOdd α → (Frechet.cdf ⟨a⟩ x).val.Is (Real.exp (- -(-t) ^ (-α))) := fun hi ho => (p2 hi ho).neg.exp
  have q3 : isInt α → ¬ isOdd α → (Frechet.cdf ⟨a⟩ x).val.Is (Real.exp (-(-t) ^ (-α))) := fun hi ho => (p3 hi ho).neg.exp
  refine ⟨by rw [frechetCDF, if_pos ht.le], fun hz => ?_, fun hi => ⟨q1 hi, ?_, ?_⟩,
    fun ho => ⟨_, q2 (io ho) ho, ?_, fun hv => ?_⟩, fun hi ho => ⟨_, q3 hi ho, Real.exp_pos _, ?_⟩⟩
  · by_cases hi : isInt α
    · by_cases ho : isOdd α
      · exact (Real.exp_pos _).ne' ((q2 hi ho).eq hz)
      · exact (Real.exp_pos _).ne' ((q3 hi ho).eq hz)
    · rw [q1 hi] at hz; exact hz.ne_nan rfl
  · unfold Frechet.pdf; dsimp only
    rw [show (Frechet.cdf ⟨a⟩ x).unwrap = nan from q1 hi, mul_nan]
  · intro hv
    have hv1 := hv.1
    rw [q1 hi] at hv1
    first | exact not_nan_le hv1 | exact not_le_nan hv1
  · rw [neg_neg]; exact Real.one_lt_exp_iff.2 hp
  · have h1 := ((q2 (io ho) ho).le_iff Is.one).1 hv.1
    rw [neg_neg] at h1
    exact absurd h1 (not_le.2 (Real.one_lt_exp_iff.2 hp))
  · exact Real.exp_lt_one_iff.2 (by linarith)

end

section
attribute [local instance] exactFP exactFP_exact
example : ∃ d, Frechet.new (fin (5/2)) = .ok d ∧ d.skewness = pinf ∧ ∃ v, d.variance.Is v := by
  have h : Frechet.new (fin (5/2)) = .ok ⟨fin (5/2)⟩ := Frechet.new_ok.2 ⟨fin_lt_fin.2 (by norm_num), rfl⟩
  obtain ⟨-, -, -, -, -, -, -, hv, -, -, hs, -⟩ := C68_frechet h (Is.fin _)
  obtain ⟨_, v, _, h2, _⟩ := hv (by norm_num)
  exact ⟨_, h, (hs (by norm_num)).1, v, h2⟩
end
end Rstat
