import Verif.Model.Dist.NormalFamily
import Verif.Lemmas.Dist.Levy
import Verif.Lemmas.DistBase
import Verif.Lemmas.MaxMin

/-! Properties C163–C166: the Lévy law. -/
set_option linter.unusedSectionVars false
namespace Rstat
open F64 Consts Spec MeasureTheory ProbabilityTheory Set

theorem Levy.new_ok [FP] {a b : F64} {d : Levy} : Levy.new a b = .ok d ↔ 0 < b ∧ d = ⟨a, b⟩ := by
  simp only [Levy.new, exc_bind_ok, Loc.new_ok, Scale.new_ok]
  constructor
  · rintro ⟨_, rfl, _, ⟨h1, rfl⟩, h⟩; exact ⟨h1, by cases h; rfl⟩
  · rintro ⟨h1, rfl⟩; exact ⟨_, rfl, _, ⟨h1, rfl⟩, rfl⟩

theorem erf_strictMono : StrictMono Spec.erf := fun a b hab => by
  have h2 : (0:ℝ) < Real.sqrt 2 := by positivity
  have := Phi_strictMono (mul_lt_mul_of_pos_left hab h2)
  unfold Phi at this
  rw [mul_div_cancel_left₀ _ h2.ne', mul_div_cancel_left₀ _ h2.ne'] at this
  linarith

section
variable [FP] [FP.Exact] {mu c : F64} {m s : ℝ} {d : Levy}

/-- C163: the accepted scales are the positive ones; on the open half line `x > mu`, `pdf` is the Lévy density, which is a
probability density with the stated distribution function; no moment of the law exists, `mean` and `variance` are `+inf`,
`skewness` and `kurtosis` refuse; the entropy is the law's. -/
theorem C163_levy (h : Levy.new mu c = .ok d) (hm : mu.Is m) (hc : c.Is s) :
    0 < s ∧ Computes d.pdf (levyPDF m s) (Ioi m) ∧
    IsCDF (levyCDF m s) ∧ IsDensityOf (levyPDF m s) (levyCDF m s) ∧
    (d.mean = pinf ∧ ∀ a, ¬ HasMean (levyPDF m s) a) ∧ (d.variance = pinf ∧ ∀ a v, ¬ HasMeanVar (levyPDF m s) a v) ∧
    (d.skewness = .error .undefined ∧ ∀ k, ¬ HasSkew (levyPDF m s) k) ∧
    (d.kurtosis = .error .undefined ∧ ∀ k, ¬ HasKurt (levyPDF m s) k) ∧
    (∃ e, d.shannonEntropy.Is e ∧ HasEntropy (levyPDF m s) e) := by
  obtain ⟨h0, rfl⟩ := Levy.new_ok.1 h
  have hs : 0 < s := pos_of_lt h0 hc
  have nm : ∀ a, ¬ HasMean (levyPDF m s) a := fun a ha => levy_no_moment hs one_pos 0 a (hasMean_iff_raw.1 ha)
  refine ⟨hs, fun x t ht hx => ?_, (levy_density hs).1, (levy_density hs).2, ⟨rfl, nm⟩, ⟨rfl, fun a v h => nm a h.1⟩,
    ⟨rfl, fun k ⟨a, v, _, h, _⟩ => nm a h.1⟩, ⟨rfl, fun k ⟨a, v, _, h, _⟩ => nm a h.1⟩, _, ?_, levy_entropy hs⟩
  · have ht : 0 < t - m := by linarith [show m < t from ht]
    unfold Levy.pdf levyPDF
    dsimp only
    rw [if_neg (by linarith)]
    have hp := Real.pi_pos
    refine Is.congr (r := Real.sqrt (s / 2 / Real.pi) * Real.exp (-(s / 2) / (t - m)) / (t - m) ^ (3 / 2 : ℝ)) (by fev) ?_
    rw [show s / 2 / Real.pi = s / (2 * Real.pi) by field_simp, show -(s / 2) / (t - m) = -s / (2 * (t - m)) by field_simp]
  · unfold Levy.shannonEntropy
    dsimp only
    have hp := Real.pi_pos
    have i1 : (F64.digamma 1).Is (Spec.digamma 1) := Is.digamma Is.one one_pos
    have i2 : (PI_16 * c * c).Is (Real.pi * 16 * s * s) := (PI_16_is.mul hc).mul hc
    have i3 := i2.ln (by positivity)
    refine Is.congr (((Is.one.add ((Is.num 3).mul i1.neg)).add i3).div (Is.num 2) (by norm_num)) ?_
    rw [digamma_one, neg_neg, show Real.pi * 16 * s * s = 16 * Real.pi * s ^ 2 by ring]

/-- C164, violated: the location `mu` belongs to the declared support, but `pdf(mu)` is NaN (the density is 0 there), and so is
`pdf(x)` for every `x < mu`. -/
theorem C164_levy_boundary_violated (h : Levy.new mu c = .ok d) (hm : mu.Is m) (hc : c.Is s) :
    d.support = mu ∧ levyPDF m s m = 0 ∧ d.pdf d.support = nan ∧
    (∀ (x : F64) (t : ℝ), x.Is t → t < m → d.pdf x = nan ∧ levyPDF m s t = 0) := by
  obtain ⟨h0, rfl⟩ := Levy.new_ok.1 h
  have hs : 0 < s := pos_of_lt h0 hc
  refine ⟨rfl, if_pos le_rfl, ?_, fun x t hx ht => ⟨?_, if_pos ht.le⟩⟩
  · unfold Levy.pdf Levy.support
    dsimp only
    have e0 : mu - mu = F64.fin 0 := by
      rcases hm with rfl | ⟨rfl, rfl⟩
      · show F64.add (F64.fin m) (F64.neg (F64.fin m)) = _
        unfold F64.neg
        dsimp only
        split_ifs with h0
        · show F64.round (m + 0) = _
          rw [round_exact, h0, add_zero]
        · show F64.round (m + -m) = _
          rw [round_exact, add_neg_cancel]
      · show F64.round ((0:ℝ) + 0) = _
        rw [round_exact, add_zero]
    have i3 : THREE_HALVES = F64.fin (3 / 2) := THREE_HALVES_is.eq_fin (by norm_num)
    have e1 : (F64.fin 0).powf (F64.fin (3 / 2)) = F64.fin 0 := by
      unfold F64.powf
      norm_num [F64.toReal, F64.szero, F64.isNeg]
    have e2 : (c / 2) = F64.fin (s / 2) := (hc.div (Is.num 2) (by norm_num)).eq_fin (by positivity)
    rw [e0, i3, e1, e2]
    have e4 : -F64.fin (s / 2) / F64.fin 0 = ninf := by
      rw [show -F64.fin (s / 2) = F64.fin (-(s / 2)) from ((Is.fin (s / 2)).neg).eq_fin (by linarith)]
      show F64.div _ _ = _
      unfold F64.div
      norm_num [F64.toReal, F64.sinf, F64.isNeg, F64.isInf, hs.ne', hs]
    have e5 : (ninf : F64).exp = F64.fin 0 := rfl
    rw [e4, e5]
    have hp := Real.pi_pos
    have e6 : ((F64.fin (s / 2) / PI).sqrt * F64.fin 0).Is (Real.sqrt (s / 2 / Real.pi) * 0) :=
      (((Is.fin _).div PI_is hp.ne').sqrt (by positivity)).mul (Is.fin 0)
    rw [mul_zero] at e6
    rcases e6 with e6 | ⟨e6, _⟩ <;> rw [e6]
    · show F64.div _ _ = _
      unfold F64.div
      norm_num [F64.toReal, F64.isInf]
    · show F64.div _ _ = _
      unfold F64.div
      norm_num [F64.toReal, F64.isInf]
  · unfold Levy.pdf
    dsimp only
    rw [(powf_neg_base (hx.sub hm) THREE_HALVES_is (by linarith) (by norm_num)).1 ?_, Rstat.div_nan]
    rintro ⟨n, hn⟩
    have : (3:ℝ) = ((2 * n : ℤ) : ℝ) := by push_cast; linarith
    have : (3:ℤ) = 2 * n := by exact_mod_cast this
    omega

/-- C165, violated: `cdf` is `erfc(c/(2(x-mu)))` instead of `erfc(sqrt(c/(2(x-mu))))`. Above `mu` it is right at the single point
`mu + c/2` (where the argument is 1); below `mu` it exceeds 1 and is not a probability. -/
theorem C165_levy_cdf_violated (h : Levy.new mu c = .ok d) (hm : mu.Is m) (hc : c.Is s) {x : F64} {t : ℝ} (hx : x.Is t) :
    (m < t → ((d.cdf x).val.Is (levyCDF m s t) ↔ t = m + s / 2)) ∧
    (t < m → ¬ (d.cdf x).isValid) := by
  obtain ⟨h0, rfl⟩ := Levy.new_ok.1 h
  have hs : 0 < s := pos_of_lt h0 hc
  have key : t ≠ m → (Levy.cdf ⟨mu, c⟩ x).val.Is (1 - Spec.erf (s / 2 / (t - m))) := fun hne => by
    have : t - m ≠ 0 := sub_ne_zero.2 hne
    exact ((hc.div (Is.num 2) (by norm_num)).div (hx.sub hm) this).erfc
  refine ⟨fun ht => ?_, fun ht hv => ?_⟩
  · have ht' : 0 < t - m := by linarith
    have hq : 0 < s / 2 / (t - m) := by positivity
    unfold levyCDF
    rw [if_neg (not_le.2 ht), show s / (2 * (t - m)) = s / 2 / (t - m) by field_simp]
    constructor
    · intro hc
      have e := Is.eq (key ht.ne') hc
      have e2 : s / 2 / (t - m) = Real.sqrt (s / 2 / (t - m)) := erf_strictMono.injective (by linarith)
      have e3 := Real.sq_sqrt hq.le
      rw [← e2, sq] at e3
      have e4 : s / 2 / (t - m) = 1 := mul_left_cancel₀ hq.ne' (by linarith)
      rw [div_eq_one_iff_eq ht'.ne'] at e4
      linarith
    · rintro rfl
      refine (key ht.ne').congr ?_
      have : s / 2 / (m + s / 2 - m) = 1 := by rw [add_sub_cancel_left, div_self (by positivity)]
      rw [this, Real.sqrt_one]
  · have h1 := (((key ht.ne).le_iff Is.one).1 hv.1)
    have hneg : s / 2 / (t - m) < 0 := div_neg_of_pos_of_neg (by positivity) (by linarith)
    have := erf_strictMono hneg
    rw [erf_zero] at this
    linarith

/-- C166, violated: the law has the unique mode `mu + c/3` and a median for every `mu`. `modes` panics whenever `|mu| >= 1e-7`,
answers `c/3` otherwise (wrong unless `mu = 0`), and `median` always panics. -/
theorem C166_levy_mode_median_violated (h : Levy.new mu c = .ok d) (hm : mu.Is m) (hc : c.Is s) :
    (∀ x, IsMode (levyPDF m s) x ↔ x = m + s / 3) ∧
    (1 / 10 ^ 7 ≤ |m| → d.modes = .error .undefined) ∧
    (|m| < 1 / 10 ^ 7 → ∃ x, d.modes = .ok [x] ∧ x.Is (s / 3) ∧ (m ≠ 0 → ¬ IsMode (levyPDF m s) (s / 3))) ∧
    (∃ x, levyCDF m s x = 1 / 2) ∧ (∀ x, d.median ≠ .ok x) ∧
    (|m| < 1 / 10 ^ 7 → d.median = .error .unimplemented) ∧ (1 / 10 ^ 7 ≤ |m| → d.median = .error .undefined) := by
  obtain ⟨h0, rfl⟩ := Levy.new_ok.1 h
  have hs : 0 < s := pos_of_lt h0 hc
  have htol : Levy.tol.Is (1 / 10 ^ 7) := Is.lit _
  have hmode : ∀ x, IsMode (levyPDF m s) x ↔ x = m + s / 3 := fun x => by
    constructor
    · intro hx; by_contra hne
      exact absurd (hx (m + s / 3)) (not_le.2 (levy_mode hs hne))
    · rintro rfl y
      rcases eq_or_ne y (m + s / 3) with rfl | hne
      · exact le_rfl
      · exact (levy_mode hs hne).le
  have hlt : mu.abs < Levy.tol ↔ |m| < 1 / 10 ^ 7 := hm.abs.lt_iff htol
  refine ⟨hmode, fun hle => ?_, fun hl => ?_, ?_, fun x hx => ?_, fun hl => if_pos (hlt.2 hl),
    fun hl => if_neg (fun h => absurd (hlt.1 h) (not_lt.2 hl))⟩
  · unfold Levy.modes; rw [if_neg (fun h => absurd (hlt.1 h) (not_lt.2 hle))]
  · unfold Levy.modes; rw [if_pos (hlt.2 hl)]
    refine ⟨_, rfl, hc.div (Is.num 3) (by norm_num), fun hm0 hx => hm0 ?_⟩
    have := (hmode _).1 hx; linarith
  · have hcdf := (levy_density (m := m) hs)
    exact exists_eq_of_limits hcdf.2.continuous hcdf.1.bot hcdf.1.top (by norm_num) (by norm_num)
  · unfold Levy.median at hx; split_ifs at hx
end

section
attribute [local instance] exactFP exactFP_exact
/-- non-vacuity: Levy(2, 1) is accepted and meets the hypotheses of C163–C166 -/
example : ∃ d, Levy.new (F64.fin 2) (F64.fin 1) = .ok d ∧ (F64.fin 2).Is 2 ∧ (F64.fin 1).Is 1 :=
  ⟨_, Levy.new_ok.2 ⟨fin_lt_fin.2 one_pos, rfl⟩, Is.fin 2, Is.fin 1⟩
end
end Rstat
