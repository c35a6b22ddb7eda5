import Verif.Props.FloatPdf
import Verif.Props.Dist.Chi

/-! C210, C211: more densities in rounded arithmetic; the points of the closed support where the computed density is NaN. -/
namespace Rstat
open F64 Spec Consts
set_option linter.unusedSectionVars false

section
variable [FP] [FP.Lawful] [FP.Libm]

/-- a non-negative finite quantity divided by a positive one (possibly `+inf`) is non-negative -/
theorem fin_div_pos {x k : F64} (h0 : 0 ≤ x) (hf : x.isFinite) (hk : 0 < k) : (0:F64) ≤ x / k := by
  have hr := hf.is
  have hr0 := (Is.zero.le_iff hr).1 h0
  rcases pos_cases hk with rfl | ⟨s, rfl, hs⟩
  · have : (x / pinf).Is 0 := by
      generalize x.toReal = r at hr
      rcases hr with rfl | ⟨rfl, -⟩
      · change (F64.div (fin r) pinf).Is 0
        simp only [F64.div]
        rw [if_neg (show ¬ F64.isInf _ from id), if_pos (show F64.isInf pinf from trivial)]; exact szero_is _
      · change (F64.div negZero pinf).Is 0
        simp only [F64.div]
        rw [if_neg (show ¬ F64.isInf _ from id), if_pos (show F64.isInf pinf from trivial)]; exact szero_is _
    exact (Is.zero.le_iff this).2 le_rfl
  · exact le_congr rfl (div_fin_ext hr (Is.fin s) hs.ne').symm (round_nonneg (div_nonneg hr0 hs.le))

theorem div_nonneg'' {x : F64} {k : ℝ} (hk : 0 < k) (h : 0 ≤ x) : (0:F64) ≤ x / fin k := by
  refine le_trans' (le_congr rfl (div_fin_ext Is.zero (Is.fin k) hk.ne').symm ?_) (div_const_mono hk h)
  rw [zero_div]; exact (Is.zero.le_iff round_zero_is).2 le_rfl

theorem sq_nonneg' {z : F64} (hz : z ≠ nan) : (0:F64) ≤ z * z := by
  cases z with
  | nan => exact absurd rfl hz
  | pinf => rw [show (pinf * pinf : F64) = pinf by change F64.mul pinf pinf = pinf; simp [F64.mul, sinf]]; exact le_top' zero_ne_nan'
  | ninf => rw [show (ninf * ninf : F64) = pinf by change F64.mul ninf ninf = pinf; simp [F64.mul, sinf]]; exact le_top' zero_ne_nan'
  | negZero => exact le_congr rfl (mul_fin_ext Is.negZero Is.negZero).symm (round_nonneg (by norm_num))
  | fin r => exact le_congr rfl (mul_fin_ext (Is.fin r) (Is.fin r)).symm (round_nonneg (mul_self_nonneg r))

/-- powers of numbers `≥ 1` with a non-positive exponent lie in `[0, 1]` -/
theorem powf_ge_one {a e : F64} (ha : 1 ≤ a) (he : e ≤ 0) : (0:F64) ≤ a.powf e ∧ a.powf e ≤ 1 := by
  have unit : ∀ {v : F64}, v = fin 1 ∨ v = fin 0 → (0:F64) ≤ v ∧ v ≤ 1 := by
    rintro v (rfl | rfl)
    · exact ⟨zero_le_one', le_rfl' Is.one.ne_nan⟩
    · exact ⟨le_rfl' zero_ne_nan', zero_le_one'⟩
  obtain ⟨-, -, h⟩ := le_cases.1 he
  rcases h with rfl | h | ⟨s, t, hs, ht, h⟩
  · refine unit ?_
    cases a with
    | fin r =>
      have h1 : 1 ≤ r := fin_le_fin.1 ha
      rcases h1.eq_or_lt with rfl | h1
      · left; simp [F64.powf]
      · right
        have : ¬ |r| < 1 := by rw [abs_of_pos (by linarith)]; linarith
        have h2 : |r| ≠ 1 := by rw [abs_of_pos (by linarith)]; exact h1.ne'
        simp [F64.powf, h1.ne', this, h2]
    | pinf => right; simp [F64.powf]
    | negZero => exact absurd ((Is.one.le_iff Is.negZero).1 ha) (by norm_num)
    | nan => exact absurd rfl (ne_nan_right ha)
    | ninf => exact absurd rfl (nonneg_ne_ninf (le_trans' zero_le_one' ha))
  · cases h
  · rw [← Is.zero.eq ht] at h
    rcases h.eq_or_lt with rfl | h
    · refine unit (Or.inl ?_)
      unfold F64.powf
      rw [if_pos ⟨hs.isFinite, hs.toReal_eq⟩]
    · have p1 : (0:F64) < 1 := (Is.zero.lt_iff Is.one).2 one_pos
      have := powf_anti hs h (Or.inl p1) (Or.inl (one_le_pos ha)) ha
      rw [powf_one] at this; exact this

/-- C210: generalised Pareto, on `[mu, +inf]` -/
theorem C210_gpd {a b c : F64} {d : GeneralisedPareto} (h : GeneralisedPareto.new a b c = .ok d) (ha : a.isFinite)
    (hb : b.isFinite) (hc : c.isFinite) (x : F64) (hx : a ≤ x) : 0 ≤ d.pdf x := by
  obtain ⟨h0, h1, rfl⟩ := GeneralisedPareto.new_ok.1 h
  obtain ⟨s, rfl, hs⟩ := finite_pos h0 hb
  obtain ⟨z, rfl, hz⟩ := finite_pos h1 hc
  have base : 1 ≤ 1 + fin z * ((x - a) / fin s) := by
    refine one_le_one_add ?_
    have h3 : (0:F64) ≤ (x - a) / fin s := by
      refine le_trans' (le_congr rfl (div_fin_ext Is.zero (Is.fin s) hs.ne').symm ?_) (div_const_mono hs (sub_nonneg' ha hx))
      rw [zero_div]; exact (Is.zero.le_iff round_zero_is).2 le_rfl
    refine le_trans' (le_congr rfl (mul_fin_ext (Is.fin z) Is.zero).symm ?_) (const_mul_mono hz h3)
    rw [mul_zero]; exact (Is.zero.le_iff round_zero_is).2 le_rfl
  have he : fin (-1) / fin z - 1 ≤ 0 := by
    have h2 : fin (-1) / fin z ≤ 0 := by
      refine le_congr (div_fin_ext (Is.fin _) (Is.fin z) hz.ne').symm rfl ?_
      exact le_trans' (round_mono (div_nonpos_of_nonpos_of_nonneg (by norm_num) hz.le : -1 / z ≤ 0)) ((round_zero_is.le_iff Is.zero).2 le_rfl)
    refine le_trans' (sub_const_mono Is.one h2) ?_
    refine le_congr (add_ext Is.zero Is.one.neg).symm rfl ?_
    exact le_trans' (round_mono (by norm_num : (0:ℝ) + -1 ≤ 0)) ((round_zero_is.le_iff Is.zero).2 le_rfl)
  obtain ⟨g0, g1⟩ := powf_ge_one base he
  exact unit_div_pos g0 g1 h0

/-- C211: Cauchy, when `1/(π γ)` does not overflow -/
theorem C211_cauchy_partial {a b : F64} {d : Cauchy} (h : Cauchy.new a b = .ok d) (ha : a.isFinite) (hb : b.isFinite)
    (hn : (1 / PI / b).isFinite) (x : F64) (hx : x ≠ nan) : 0 ≤ d.pdf x := by
  obtain ⟨h0, rfl⟩ := Cauchy.new_ok.1 h
  obtain ⟨s, rfl, hs⟩ := finite_pos h0 hb
  obtain ⟨p, hp, p1, -⟩ := pi_bounds
  have n0 : (0:F64) ≤ 1 / PI / fin s := by
    have : (0:F64) ≤ 1 / PI := by
      rw [hp.1.eq_fin (by linarith)]
      exact le_congr rfl (div_fin_ext Is.one (Is.fin p) (by linarith)).symm (round_nonneg (by positivity))
    exact div_nonneg'' hs this
  have hz : (x - a) / fin s ≠ nan := ne_nan_left (z_mono ha hs (le_rfl' hx))
  have q0 : (0:F64) ≤ (x - a) / fin s * ((x - a) / fin s) := sq_nonneg' hz
  have q1 : (1:F64) ≤ 1 + (x - a) / fin s * ((x - a) / fin s) := one_le_one_add q0
  change 0 ≤ 1 / PI / fin s / (1 + (x - a) / fin s * ((x - a) / fin s))
  exact fin_div_pos n0 hn (one_le_pos q1)

/-- C211 (violation): when `1/(π γ)` overflows (a subnormal scale) the Cauchy density is NaN at the infinities -/
theorem C211_cauchy_violated {a b : F64} {d : Cauchy} (h : Cauchy.new a b = .ok d) (ha : a.isFinite) (hb : b.isFinite)
    (hn : 1 / PI / b = pinf) : d.pdf pinf = nan := by
  obtain ⟨h0, rfl⟩ := Cauchy.new_ok.1 h
  obtain ⟨s, rfl, hs⟩ := finite_pos h0 hb
  change 1 / PI / fin s / (1 + (pinf - a) / fin s * ((pinf - a) / fin s)) = nan
  rw [hn, z_top ha hs, show (pinf * pinf : F64) = pinf by change F64.mul pinf pinf = pinf; simp [F64.mul, sinf], fin_add_pinf Is.one,
    pinf_div_pinf']

/-- C211: Logistic, wherever `1 + exp(-z)` does not overflow -/
theorem C211_logistic_partial {a b : F64} {d : Logistic} (h : Logistic.new a b = .ok d) (ha : a.isFinite) (hb : b.isFinite) (x : F64)
    (hx : x ≠ nan) (hf : (1 + F64.exp (-((x - a) / b))).isFinite) : 0 ≤ d.pdf x := by
  obtain ⟨h0, rfl⟩ := Logistic.new_ok.1 h
  obtain ⟨s, rfl, hs⟩ := finite_pos h0 hb
  change 0 ≤ F64.exp (-((x - a) / fin s)) / fin s / (1 + F64.exp (-((x - a) / fin s))) / (1 + F64.exp (-((x - a) / fin s)))
  have e0 : (0:F64) ≤ F64.exp (-((x - a) / fin s)) :=
    exp_nonneg (ne_nan_left (neg_anti (z_mono ha hs (le_rfl' hx))))
  have p1 := one_le_pos (one_le_one_add e0)
  obtain ⟨t, ht, ht0⟩ := finite_pos p1 hf
  rw [ht]
  exact div_nonneg'' ht0 (div_nonneg'' ht0 (div_nonneg'' hs e0))

/-- C211 (violation): wherever `exp(-z)` overflows, e.g. for every `x` with `z ≤ -710` and at `-inf`, the Logistic density is NaN -/
theorem C211_logistic_violated {a b : F64} {d : Logistic} (h : Logistic.new a b = .ok d) (ha : a.isFinite) (hb : b.isFinite) :
    (∀ x, F64.exp (-((x - a) / b)) = pinf → d.pdf x = nan) ∧ d.pdf ninf = nan := by
  obtain ⟨h0, rfl⟩ := Logistic.new_ok.1 h
  obtain ⟨s, rfl, hs⟩ := finite_pos h0 hb
  have key : ∀ x, F64.exp (-((x - a) / fin s)) = pinf → Logistic.pdf ⟨a, fin s⟩ x = nan := fun x hx => by
    change F64.exp (-((x - a) / fin s)) / fin s / (1 + F64.exp (-((x - a) / fin s))) / (1 + F64.exp (-((x - a) / fin s))) = nan
    rw [hx, pinf_div_const hs, fin_add_pinf Is.one, pinf_div_pinf', nan_div']
  exact ⟨key, key _ (by rw [z_bot ha hs]; rfl)⟩

/-- C211: Gumbel, wherever `z = (x-mu)/beta` does not overflow to `-inf` -/
theorem C211_gumbel_partial {a b : F64} {d : Gumbel} (h : Gumbel.new a b = .ok d) (ha : a.isFinite) (hb : b.isFinite) (x : F64)
    (hx : x ≠ nan) (hz : (x - a) / b ≠ ninf) : 0 ≤ d.pdf x := by
  obtain ⟨h0, rfl⟩ := Gumbel.new_ok.1 h
  obtain ⟨s, rfl, hs⟩ := finite_pos h0 hb
  change 0 ≤ F64.exp (-((x - a) / fin s) - F64.exp (-((x - a) / fin s))) / fin s
  refine div_nonneg'' hs (exp_nonneg ?_)
  have hn : (x - a) / fin s ≠ nan := ne_nan_left (z_mono ha hs (le_rfl' hx))
  have key : ∀ {u : F64} {r : ℝ}, u.Is r → ∀ {v : F64}, v ≠ nan → u - v ≠ nan := fun {_ _} hu {v} hv =>
    ne_nan_left (const_sub_anti hu (le_rfl' hv))
  generalize (x - a) / fin s = z at hz hn
  cases z with
  | nan => exact absurd rfl hn
  | ninf => exact absurd rfl hz
  | pinf =>
    change ninf - F64.exp ninf ≠ nan
    rw [show F64.exp ninf = fin 0 from rfl, show ninf - fin 0 = ninf from ninf_add (Is.fin 0).neg]; simp
  | negZero => exact key Is.negZero.neg (exp_ne_nan (Is.negZero.neg).ne_nan)
  | fin r => exact key (Is.fin r).neg (exp_ne_nan ((Is.fin r).neg).ne_nan)

/-- C211 (violation): the Gumbel density at `-inf` is NaN (`inf - inf`) -/
theorem C211_gumbel_violated {a b : F64} {d : Gumbel} (h : Gumbel.new a b = .ok d) (ha : a.isFinite) (hb : b.isFinite) :
    d.pdf ninf = nan := by
  obtain ⟨h0, rfl⟩ := Gumbel.new_ok.1 h
  obtain ⟨s, rfl, hs⟩ := finite_pos h0 hb
  change F64.exp (-((ninf - a) / fin s) - F64.exp (-((ninf - a) / fin s))) / fin s = nan
  rw [z_bot ha hs]
  change F64.exp (pinf - pinf) / fin s = nan
  rw [show (pinf - pinf : F64) = nan from rfl]; exact nan_div' _

/-- C211 (violation): the Rayleigh density at `+inf` is NaN (`inf * 0`) when `sigma²` is a positive finite number -/
theorem C211_rayleigh_violated {a : F64} {v : ℝ} {d : Rayleigh} (h : Rayleigh.new a = .ok d) (hv : (a * a).Is v) (hv0 : 0 < v) :
    d.pdf pinf = nan := by
  obtain ⟨h0, rfl⟩ := Rayleigh.new_ok.1 h
  change pinf / (a * a) * F64.exp (ninf * pinf / (a * a) / 2) = nan
  rw [hv.eq_fin hv0.ne', pinf_div_const hv0, ninf_mul_pinf, ninf_div_const hv0, show ninf / 2 = ninf from ninf_div_const two_pos]
  exact pinf_mul_zero (Is.fin 0)

/-- C211 (violation): the Frechet density at 0, a point of the closed half line returned by `support()`, is NaN (`inf * 0`) -/
theorem C211_frechet_violated {a : F64} {d : Frechet} (h : Frechet.new a = .ok d) (ha : a.isFinite) : d.pdf 0 = nan := by
  obtain ⟨h0, rfl⟩ := Frechet.new_ok.1 h
  obtain ⟨s, rfl, hs⟩ := finite_pos h0 ha
  have e1 : (0:F64).powf (-(fin s)) = pinf := powf_zero_neg (Is.fin s).neg (by linarith)
  have e2 : (0:F64).powf (fin (-1) - fin s) = pinf := by
    have hle : fin (-1) - fin s ≤ fin (-1) := by
      refine le_congr (add_ext (Is.fin (-1)) (Is.fin s).neg).symm rfl ?_
      refine le_trans' (round_mono (by linarith : (-1:ℝ) + -s ≤ -1)) ?_
      have r : FP.rnd (-1) = -1 := by rw [FP.Lawful.rnd_neg, rnd_one]
      have : (F64.round (-1)).Is (-1) := (round_is (by rw [r]; exact fun h => not_huge_one ((FP.Lawful.huge_neg _).1 h))).congr r
      exact (this.le_iff (Is.fin _)).2 le_rfl
    obtain ⟨-, -, hc⟩ := le_cases.1 hle
    rcases hc with hc | hc | ⟨u, v, hu, hv, huv⟩
    · rw [hc]; change (fin 0).powf ninf = pinf; simp [F64.powf]
    · cases hc
    · have : v = -1 := (Is.fin (-1)).eq hv ▸ rfl
      exact powf_zero_neg hu (by linarith)
  change fin s * (0:F64).powf (fin (-1) - fin s) * F64.exp (-((0:F64).powf (-(fin s)))) = nan
  rw [e1, e2, const_mul_pinf hs]
  exact pinf_mul_zero (Is.fin 0)

/-- C211 (violation): the Weibull density at `+inf` is NaN for every shape above 1 -/
theorem C211_weibull_violated {a b : F64} {k : ℝ} {d : Weibull} (h : Weibull.new a b = .ok d) (ha : a.isFinite) (hb : b.isFinite)
    (hk : (b - 1).Is k) (hk0 : 0 < k) (hp : 0 < b / a) : d.pdf pinf = nan := by
  obtain ⟨h0, h1, rfl⟩ := Weibull.new_ok.1 h
  obtain ⟨s, rfl, hs⟩ := finite_pos h0 ha
  obtain ⟨t, rfl, ht⟩ := finite_pos h1 hb
  unfold Weibull.pdf
  dsimp only
  rw [if_pos (le_top' zero_ne_nan'), pinf_div_const hs, powf_pinf_pos hk hk0, powf_pinf_pos (Is.fin t) ht]
  have : fin t / fin s * pinf = pinf := by
    rcases pos_cases hp with e | ⟨r, e, hr⟩
    · rw [e]; change F64.mul pinf pinf = pinf; simp [F64.mul, sinf]
    · rw [e, const_mul_pinf hr]
  rw [this]; exact pinf_mul_zero (Is.fin 0)

theorem any_mul_pinf_zero (c : F64) : c * pinf * fin 0 = nan := by
  have : c * pinf = nan ∨ c * pinf = pinf ∨ c * pinf = ninf := by
    change F64.mul c pinf = nan ∨ F64.mul c pinf = pinf ∨ F64.mul c pinf = ninf
    unfold F64.mul
    split
    · exact Or.inl rfl
    · exact Or.inl rfl
    · rw [if_pos (Or.inr (show F64.isInf pinf from trivial))]
      split_ifs
      · exact Or.inl rfl
      · unfold sinf; split_ifs <;> simp
  rcases this with e | e | e <;> rw [e]
  · exact nan_mul' _
  · exact pinf_mul_zero (Is.fin 0)
  · exact ninf_mul_zero (Is.fin 0)

/-- C211 (violation): the Gamma density at `+inf` is NaN for every shape above 1, whatever the rate -/
theorem C211_gamma_violated {a b : F64} {k : ℝ} {d : Gamma} (h : Gamma.new a b = .ok d) (ha : a.isFinite) (hb : b.isFinite)
    (hk : (a - 1).Is k) (hk0 : 0 < k) : d.pdf pinf = nan := by
  obtain ⟨h0, h1, rfl⟩ := Gamma.new_ok.1 h
  obtain ⟨s, rfl, hs⟩ := finite_pos h1 hb
  change (fin s).powf a * pinf.powf (a - 1) * F64.exp (-(fin s) * pinf) / a.gamma = nan
  have e1 : -(fin s) * pinf = ninf := by
    rw [(Is.fin s).neg.eq_fin (by linarith)]
    change F64.mul (fin (-s)) pinf = ninf
    simp [F64.mul, F64.isInf, F64.isFinite, F64.toReal, hs.ne', sinf, F64.isNeg, hs]
  rw [powf_pinf_pos hk hk0, e1, show F64.exp ninf = fin 0 from rfl, any_mul_pinf_zero, nan_div']

/-- C211 (violation): the Chi-squared density at `+inf` is NaN for more than two degrees of freedom -/
theorem C211_chi_sq_violated {n : ℕ} {k : ℝ} {d : ChiSq} (h : ChiSq.new n = .ok d) (hk : (F64.ofNat n / 2 - 1).Is k) (hk0 : 0 < k) :
    d.pdf pinf = nan := by
  obtain ⟨h0, rfl⟩ := ChiSq.new_ok.1 h
  change pinf.powf (F64.ofNat n / 2 - 1) * F64.exp (ninf / 2) / _ = nan
  rw [powf_pinf_pos hk hk0, show ninf / 2 = ninf from ninf_div_const two_pos, show F64.exp ninf = fin 0 from rfl,
    pinf_mul_zero (Is.fin 0), nan_div']

/-- C211 (violation): the Chi density at `+inf` is NaN for more than one degree of freedom -/
theorem C211_chi_violated {n : ℕ} {k : ℝ} {d : Chi} (h : Chi.new n = .ok d) (hk : (F64.ofNat n - 1).Is k) (hk0 : 0 < k) :
    d.pdf pinf = nan := by
  obtain ⟨h0, rfl⟩ := Chi.new_ok.1 h
  change pinf.powf (F64.ofNat n - 1) * F64.exp (ninf * pinf / 2) / _ = nan
  rw [powf_pinf_pos hk hk0, ninf_mul_pinf, show ninf / 2 = ninf from ninf_div_const two_pos, show F64.exp ninf = fin 0 from rfl,
    pinf_mul_zero (Is.fin 0), nan_div']

theorem self_sub {c : F64} (hc : c.isFinite) : (c - c) = fin 0 := by
  rcases add_eq_round hc.is hc.is.neg with h' | ⟨h', h'', _⟩
  · change c + -c = _
    rw [h', add_neg_cancel]
    have hr : FP.rnd 0 = (0:ℝ) := rnd_zero
    unfold F64.round
    rw [hr, if_neg (FP.Lawful.not_huge 0 (by simp)), if_neg (by simp)]
  · rw [h'] at h''; cases h''

/-- a negative finite number divided by `+0` is `-inf` -/
theorem neg_div_zero {c : F64} {k : ℝ} (hc : c.Is k) (hk : k < 0) : c / fin 0 = ninf := by
  rw [hc.eq_fin hk.ne]
  change F64.div (fin k) (fin 0) = ninf
  simp [F64.div, F64.isInf, F64.toReal, hk.ne, sinf, F64.isNeg, hk]

theorem three_halves : THREE_HALVES.Is (3 / 2) := by
  have r : FP.rnd (3 / 2 : ℝ) = 3 / 2 := by have := FP.Lawful.rnd_dyadic 3 1 (by norm_num) (by norm_num); norm_num at this; exact this
  refine (div_is (Is.num 3) (Is.num 2) two_ne_zero ?_).congr r
  rw [r]
  refine FP.Lawful.not_huge _ ?_
  rw [abs_of_pos (by norm_num)]
  exact (by norm_num : (3 / 2 : ℝ) ≤ 2 ^ 1).trans (pow_le_pow_right₀ (by norm_num) (by norm_num))

/-- C211 (violation): the Lévy density at `mu`, the closed end of the support, is NaN (`0 / 0`) -/
theorem C211_levy_violated {a b : F64} {k : ℝ} {d : Levy} (h : Levy.new a b = .ok d) (ha : a.isFinite) (hk : (b / 2).Is k)
    (hk0 : 0 < k) : d.pdf a = nan := by
  obtain ⟨h0, rfl⟩ := Levy.new_ok.1 h
  change (b / 2 / PI).sqrt * F64.exp (-(b / 2) / (a - a)) / (a - a).powf THREE_HALVES = nan
  rw [self_sub ha, neg_div_zero hk.neg (by linarith), show F64.exp ninf = fin 0 from rfl]
  have e2 : ((fin 0).powf THREE_HALVES).Is 0 := powf_zero_pos (Is.fin 0) three_halves (by norm_num)
  have e1 : (b / 2 / PI).sqrt * fin 0 = nan ∨ ((b / 2 / PI).sqrt * fin 0).Is 0 := by
    generalize (b / 2 / PI).sqrt = c
    cases c with
    | nan => exact Or.inl (nan_mul' _)
    | pinf => exact Or.inl (pinf_mul_zero (Is.fin 0))
    | ninf => exact Or.inl (ninf_mul_zero (Is.fin 0))
    | negZero => right; rw [mul_finite Is.negZero (Is.fin 0), if_pos (mul_zero _)]; exact szero_is _
    | fin r => right; rw [mul_finite (Is.fin r) (Is.fin 0), if_pos (mul_zero _)]; exact szero_is _
  rcases e1 with e1 | e1
  · rw [e1, nan_div']
  · exact zero_div_zero' e1 e2

/-- C211 (violation): the inverse-gamma density at 0, the limit point of its support, is NaN (`inf * 0`) -/
theorem C211_inv_gamma_violated {a b : F64} {d : InvGamma} (h : InvGamma.new a b = .ok d) (ha : a.isFinite) (hb : b.isFinite) :
    d.pdf 0 = nan := by
  obtain ⟨h0, h1, rfl⟩ := InvGamma.new_ok.1 h
  obtain ⟨s, rfl, hs⟩ := finite_pos h0 ha
  obtain ⟨t, rfl, ht⟩ := finite_pos h1 hb
  have hle : -(fin s) - 1 ≤ fin (-1) := by
    refine le_congr (add_ext (Is.fin s).neg Is.one.neg).symm rfl ?_
    refine le_trans' (round_mono (by linarith : -s + -1 ≤ -1)) ?_
    have r : FP.rnd (-1) = -1 := by rw [FP.Lawful.rnd_neg, rnd_one]
    have : (F64.round (-1)).Is (-1) := (round_is (by rw [r]; exact fun h => not_huge_one ((FP.Lawful.huge_neg _).1 h))).congr r
    exact (this.le_iff (Is.fin _)).2 le_rfl
  have e2 : (0:F64).powf (-(fin s) - 1) = pinf := by
    obtain ⟨-, -, hc⟩ := le_cases.1 hle
    rcases hc with hc | hc | ⟨u, v, hu, hv, huv⟩
    · rw [hc]; change (fin 0).powf ninf = pinf; simp [F64.powf]
    · cases hc
    · have : v = -1 := (Is.fin (-1)).eq hv ▸ rfl
      exact powf_zero_neg hu (by linarith)
  change (fin t).powf (fin s) * (0:F64).powf (-(fin s) - 1) * F64.exp (-(fin t) / 0) / (fin s).gamma = nan
  rw [e2, show -(fin t) / 0 = ninf from neg_div_zero (Is.fin t).neg (by linarith), show F64.exp ninf = fin 0 from rfl,
    any_mul_pinf_zero, nan_div']

/-- C211 (violation): the F density at 0, the closed end of its support, is NaN (`0 / 0`), whatever the degrees of freedom for which the
beta function does not overflow -/
theorem C211_f_dist_violated [FP.SpecialFns] {k l : ℕ} {d : FDist} (h : FDist.new k l = .ok d) (hk : k < 2 ^ 64)
    (hv : ((F64.ofNat k / 2).beta (F64.ofNat l / 2)).isFinite) : d.pdf 0 = nan := by
  obtain ⟨h0, h1, rfl⟩ := FDist.new_ok.1 h
  obtain ⟨r, hr, hr1, -⟩ := dof_bounds h0 hk
  have e0 : (F64.ofNat k * 0).Is 0 := by rw [mul_finite hr.1 Is.zero, if_pos (mul_zero _)]; exact szero_is _
  have ep : ((F64.ofNat k * 0).powf (F64.ofNat k)).Is 0 := powf_zero_pos e0 hr.1 (by linarith)
  have ed : (0 * (F64.ofNat k / 2).beta (F64.ofNat l / 2)).Is 0 := by
    rw [mul_finite Is.zero hv.is, if_pos (zero_mul _)]; exact szero_is _
  change ((F64.ofNat k * 0).powf (F64.ofNat k) * (F64.ofNat l).powf (F64.ofNat l) / (F64.ofNat k * 0 + F64.ofNat l).powf (F64.ofNat k + F64.ofNat l)).sqrt
    / (0 * (F64.ofNat k / 2).beta (F64.ofNat l / 2)) = nan
  have zm : ∀ {u : F64}, u.Is 0 → ∀ w : F64, u * w = nan ∨ (u * w).Is 0 := fun {u} hu w => by
    cases w with
    | nan => exact Or.inl (mul_nan _)
    | pinf => left; change F64.mul u pinf = nan; rcases hu with rfl | ⟨rfl, -⟩ <;> simp [F64.mul, F64.isInf, F64.isFinite, F64.toReal]
    | ninf => left; change F64.mul u ninf = nan; rcases hu with rfl | ⟨rfl, -⟩ <;> simp [F64.mul, F64.isInf, F64.isFinite, F64.toReal]
    | negZero => right; rw [mul_finite hu Is.negZero, if_pos (zero_mul _)]; exact szero_is _
    | fin q => right; rw [mul_finite hu (Is.fin q), if_pos (zero_mul _)]; exact szero_is _
  have zd : ∀ {u : F64}, u.Is 0 → ∀ w : F64, u / w = nan ∨ (u / w).Is 0 := fun {u} hu w => by
    cases w with
    | nan => left; change F64.div u nan = nan; cases u <;> rfl
    | pinf => right; change (F64.div u pinf).Is 0; rcases hu with rfl | ⟨rfl, -⟩ <;> simp [F64.div, F64.isInf, szero_is]
    | ninf => right; change (F64.div u ninf).Is 0; rcases hu with rfl | ⟨rfl, -⟩ <;> simp [F64.div, F64.isInf, szero_is]
    | negZero => exact Or.inl (zero_div_zero' hu Is.negZero)
    | fin q =>
      by_cases hq : q = 0
      · subst hq; exact Or.inl (zero_div_zero' hu (Is.fin 0))
      · right; rw [div_finite hu (Is.fin q) hq, if_pos rfl]; exact szero_is _
  have zs : ∀ {u : F64}, u.Is 0 → u.sqrt.Is 0 := by
    rintro u (rfl | ⟨rfl, -⟩)
    · change (if (0:ℝ) < 0 then nan else F64.round (Real.sqrt 0)).Is 0
      rw [if_neg (lt_irrefl _), Real.sqrt_zero]; exact round_zero_is
    · exact Is.negZero
  rcases zm ep ((F64.ofNat l).powf (F64.ofNat l)) with e | e
  · rw [e, nan_div']; exact nan_div' _
  · rcases zd e ((F64.ofNat k * 0 + F64.ofNat l).powf (F64.ofNat k + F64.ofNat l)) with e | e
    · rw [e]; exact nan_div' _
    · exact zero_div_zero' (zs e) ed

/-- C211 (violation): the inverse-normal density at 0, the closed end of its support, is NaN (`inf * 0`), unless the intermediate
quotients underflow -/
theorem C211_inv_normal_violated {a b : F64} {k q : ℝ} {d : InvNormal} (h : InvNormal.new a b = .ok d)
    (hq : (b / PI_2).Is q) (hq0 : 0 < q) (hk : (-b * (0 - a) * (0 - a) / 2 / a / a).Is k) (hk0 : k < 0) : d.pdf 0 = nan := by
  obtain ⟨h0, h1, rfl⟩ := InvNormal.new_ok.1 h
  change (b / PI_2 / 0 / 0 / 0).sqrt * F64.exp (-b * (0 - a) * (0 - a) / 2 / a / a / 0) = nan
  rw [show -b * (0 - a) * (0 - a) / 2 / a / a / 0 = ninf from neg_div_zero hk hk0, show F64.exp ninf = fin 0 from rfl, hq.eq_fin hq0.ne']
  have e1 : fin q / 0 = pinf := by
    change F64.div (fin q) (fin 0) = pinf
    simp [F64.div, F64.isInf, F64.toReal, hq0.ne', sinf, F64.isNeg, not_lt.2 hq0.le]
  have e2 : pinf / 0 = pinf := by
    change F64.div pinf (fin 0) = pinf
    simp [F64.div, F64.isInf, sinf, F64.isNeg]
  rw [e1, e2, e2, show F64.sqrt pinf = pinf from rfl, pinf_mul_zero (Is.fin 0)]
end

section
open B64
attribute [local instance] binary64 binary64_lawful B64.libm B64.specialFns

theorem b64_nat (n : ℕ) (hn : n ≤ 2 ^ 10) : (fin (n:ℝ)).Rep n :=
  ⟨Is.fin _, rnd_natCast n (hn.trans (by norm_num)), FP.Lawful.not_huge _ (by
    rw [abs_of_nonneg (by positivity)]
    have h1 : (n:ℝ) ≤ 2 ^ 10 := by exact_mod_cast hn
    exact h1.trans (pow_le_pow_right₀ (by norm_num) (by norm_num)))⟩

theorem b64_ofNat (n : ℕ) (hn : n ≤ 2 ^ 10) (h0 : 0 < n) : F64.ofNat n = fin (n:ℝ) := by
  obtain ⟨-, h1, h2⟩ := b64_nat n hn
  exact ((round_is (by rw [h1]; exact h2)).congr h1).eq_fin (by positivity)

/-- small integer operations are exact -/
theorem b64_sub (x y n : ℤ) (hn : |n| ≤ 2 ^ 10) (e : x - y = n) : (fin (x:ℝ) - fin (y:ℝ)).Is (n:ℝ) := by
  have er : (x:ℝ) - y = n := by rw [← e]; push_cast; ring
  have hr : B64.rnd (n:ℝ) = n := by
    have := rnd_repr n 0 (hn.trans (by norm_num)) (by norm_num); simpa using this
  have hh : ¬ FP.huge (n:ℝ) := binary64_lawful.not_huge _ (by
    have h1 : |(n:ℝ)| ≤ 2 ^ 10 := by exact_mod_cast hn
    exact h1.trans (pow_le_pow_right₀ (by norm_num) (by norm_num)))
  refine (sub_is (Is.fin _) (Is.fin _) ?_).congr ?_ <;> rw [er]
  · change ¬ FP.huge (B64.rnd _); rw [hr]; exact hh
  · exact hr

example : ∃ d, UvNormal.new (fin 1) (fin (4:ℕ)) = .ok d ∧ ∀ x, x ≠ nan → 0 ≤ d.pdf x := by
  have h : UvNormal.new (fin 1) (fin (4:ℕ)) = .ok ⟨fin 1, fin (4:ℕ)⟩ := UvNormal.new_ok.2 ⟨fin_lt_fin.2 (by norm_num), rfl⟩
  exact ⟨_, h, C210_normal h trivial (b64_nat 4 (by norm_num))⟩
example : ∃ d, FoldedNormal.new (fin 1) (fin (2:ℕ)) = .ok d ∧ ∀ x, x ≠ nan → 0 ≤ d.pdf x := by
  have h : FoldedNormal.new (fin 1) (fin (2:ℕ)) = .ok ⟨fin 1, fin (2:ℕ)⟩ := FoldedNormal.new_ok.2 ⟨fin_lt_fin.2 (by norm_num), rfl⟩
  exact ⟨_, h, C210_folded_normal h trivial (b64_nat 2 (by norm_num))⟩
example : ∃ d, LogNormal.new (fin 1) (fin (2:ℕ)) = .ok d ∧ 0 ≤ d.pdf 0 := by
  have h : LogNormal.new (fin 1) (fin (2:ℕ)) = .ok ⟨⟨fin 1, fin (2:ℕ)⟩⟩ := LogNormal.new_ok.2 ⟨fin_lt_fin.2 (by norm_num), rfl⟩
  exact ⟨_, h, C210_lognormal h trivial (b64_nat 2 (by norm_num)) 0 (le_rfl' zero_ne_nan')⟩
example : ∃ d, Exponential.new (fin 2) = .ok d ∧ 0 ≤ d.pdf pinf ∧ 0 ≤ d.pdf ninf := by
  have h : Exponential.new (fin 2) = .ok ⟨fin 2⟩ := Exponential.new_ok.2 ⟨fin_lt_fin.2 (by norm_num), rfl⟩
  exact ⟨_, h, C210_exponential h trivial _ (by simp), C210_exponential h trivial _ (by simp)⟩
example : ∃ d, Laplace.new (fin 2) (fin 3) = .ok d ∧ ∃ v, d.pdf ninf = .ok v ∧ 0 ≤ v ∧ v ≤ 1 := by
  have h : Laplace.new (fin 2) (fin 3) = .ok ⟨fin 2, fin 3⟩ := Laplace.new_ok.2 ⟨fin_lt_fin.2 (by norm_num), rfl⟩
  exact ⟨_, h, C210_laplace h trivial trivial _ (by simp)⟩
example : ∃ d, UniformF.new (fin 2) (fin 3) = .ok d ∧ 0 ≤ d.pdf (fin 4) := by
  have h : UniformF.new (fin 2) (fin 3) = .ok ⟨fin 2, fin 3, 1 / fin 3⟩ := UniformF.new_ok.2 ⟨fin_lt_fin.2 (by norm_num), rfl⟩
  exact ⟨_, h, C210_uniform h _⟩
example : ∃ d, GeneralisedPareto.new (fin 1) (fin 3) (fin 2) = .ok d ∧ 0 ≤ d.pdf pinf := by
  have h : GeneralisedPareto.new (fin 1) (fin 3) (fin 2) = .ok ⟨fin 1, fin 3, fin 2⟩ :=
    GeneralisedPareto.new_ok.2 ⟨fin_lt_fin.2 (by norm_num), fin_lt_fin.2 (by norm_num), rfl⟩
  exact ⟨_, h, C210_gpd h trivial trivial trivial _ (le_top' (by simp))⟩
example : ∃ d, Logistic.new (fin 1) (fin 3) = .ok d ∧ d.pdf ninf = nan ∧ 0 ≤ d.pdf pinf := by
  have h : Logistic.new (fin 1) (fin 3) = .ok ⟨fin 1, fin 3⟩ := Logistic.new_ok.2 ⟨fin_lt_fin.2 (by norm_num), rfl⟩
  refine ⟨_, h, (C211_logistic_violated h trivial trivial).2, C211_logistic_partial h trivial trivial _ (by simp) ?_⟩
  rw [z_top (m := fin 1) (s := 3) trivial (by norm_num)]
  change (1 + fin 0 : F64).isFinite
  exact (one_add_zero (Is.fin 0)).isFinite
example : ∃ d, Gumbel.new (fin 1) (fin 3) = .ok d ∧ d.pdf ninf = nan ∧ 0 ≤ d.pdf pinf := by
  have h : Gumbel.new (fin 1) (fin 3) = .ok ⟨fin 1, fin 3⟩ := Gumbel.new_ok.2 ⟨fin_lt_fin.2 (by norm_num), rfl⟩
  refine ⟨_, h, C211_gumbel_violated h trivial trivial, C211_gumbel_partial h trivial trivial _ (by simp) ?_⟩
  rw [z_top (m := fin 1) (s := 3) trivial (by norm_num)]; simp
example : ∃ d, Frechet.new (fin 3) = .ok d ∧ d.pdf 0 = nan := by
  have h : Frechet.new (fin 3) = .ok ⟨fin 3⟩ := Frechet.new_ok.2 ⟨fin_lt_fin.2 (by norm_num), rfl⟩
  exact ⟨_, h, C211_frechet_violated h trivial⟩
example : ∃ d, InvGamma.new (fin 3) (fin 2) = .ok d ∧ d.pdf 0 = nan := by
  have h : InvGamma.new (fin 3) (fin 2) = .ok ⟨fin 3, fin 2⟩ :=
    InvGamma.new_ok.2 ⟨fin_lt_fin.2 (by norm_num), fin_lt_fin.2 (by norm_num), rfl⟩
  exact ⟨_, h, C211_inv_gamma_violated h trivial trivial⟩
example : ∃ d, Gamma.new (fin (3:ℤ)) (fin 2) = .ok d ∧ d.pdf pinf = nan := by
  have h : Gamma.new (fin (3:ℤ)) (fin 2) = .ok ⟨fin (3:ℤ), fin 2⟩ :=
    Gamma.new_ok.2 ⟨fin_lt_fin.2 (by norm_num), fin_lt_fin.2 (by norm_num), rfl⟩
  have e : (fin ((3:ℤ):ℝ) - 1).Is ((2:ℤ):ℝ) := by
    have := b64_sub 3 1 2 (by norm_num) (by norm_num)
    rwa [show fin ((1:ℤ):ℝ) = 1 by rw [Int.cast_one]; rfl] at this
  exact ⟨_, h, C211_gamma_violated h trivial trivial e (by norm_num)⟩
example : ∃ d, Chi.new 3 = .ok d ∧ d.pdf pinf = nan := by
  have h := chi_ex 3 (by norm_num)
  have e : (F64.ofNat 3 - 1).Is ((2:ℤ):ℝ) := by
    have := b64_sub 3 1 2 (by norm_num) (by norm_num)
    rw [b64_ofNat 3 (by norm_num) (by norm_num)]
    rwa [show fin ((1:ℤ):ℝ) = 1 by rw [Int.cast_one]; rfl] at this
  exact ⟨_, h, C211_chi_violated h e (by norm_num)⟩
example : ∃ d, Levy.new 0 (fin (4:ℕ)) = .ok d ∧ d.pdf 0 = nan := by
  have h : Levy.new 0 (fin (4:ℕ)) = .ok ⟨0, fin (4:ℕ)⟩ := Levy.new_ok.2 ⟨fin_lt_fin.2 (by norm_num), rfl⟩
  have hh := (b64_nat 4 (by norm_num)).half (by norm_num)
  have e : FP.rnd (((4:ℕ):ℝ) / 2) = 2 := by
    have := rnd_natCast 2 (by norm_num)
    rw [show ((4:ℕ):ℝ) / 2 = ((2:ℕ):ℝ) by norm_num, this]; norm_num
  rw [e] at hh
  exact ⟨_, h, C211_levy_violated h trivial hh two_pos⟩
example : ∃ d, Rayleigh.new 1 = .ok d ∧ d.pdf pinf = nan := by
  have h : Rayleigh.new 1 = .ok ⟨1⟩ := Rayleigh.new_ok.2 ⟨fin_lt_fin.2 (by norm_num), rfl⟩
  have e : ((1:F64) * 1).Is 1 := by
    refine (mul_is Is.one Is.one ?_).congr ?_ <;> rw [mul_one, rnd_one]
    exact not_huge_one
  exact ⟨_, h, C211_rayleigh_violated h e one_pos⟩
example : ∃ d, Weibull.new 1 (fin (2:ℤ)) = .ok d ∧ d.pdf pinf = nan := by
  have h : Weibull.new 1 (fin (2:ℤ)) = .ok ⟨1, fin (2:ℤ)⟩ :=
    Weibull.new_ok.2 ⟨fin_lt_fin.2 (by norm_num), fin_lt_fin.2 (by norm_num), rfl⟩
  have e : (fin ((2:ℤ):ℝ) - 1).Is ((1:ℤ):ℝ) := by
    have := b64_sub 2 1 1 (by norm_num) (by norm_num)
    rwa [show fin ((1:ℤ):ℝ) = 1 by rw [Int.cast_one]; rfl] at this
  refine ⟨_, h, C211_weibull_violated h trivial trivial e (by norm_num) ?_⟩
  have r := rnd_natCast 2 (by norm_num)
  have e2 : (fin ((2:ℤ):ℝ) / 1).Is 2 := by
    refine (div_is (Is.fin _) Is.one one_ne_zero ?_).congr ?_ <;> rw [div_one]
    · have : ¬ FP.huge (((2:ℕ):ℝ)) := (b64_nat 2 (by norm_num)).2.2
      rw [show ((2:ℤ):ℝ) = ((2:ℕ):ℝ) by norm_num, r]; exact this
    · rw [show ((2:ℤ):ℝ) = ((2:ℕ):ℝ) by norm_num, r]; norm_num
  exact (Is.zero.lt_iff e2).2 two_pos
end
end Rstat
