import Verif.Model.Dist.BetaFamily
import Verif.Lemmas.Dist.Beta2
import Verif.Lemmas.DistBase
import Verif.Lemmas.MaxMin
import Verif.Lemmas.Positive

/-! Properties C98, C142–C147: the Beta law. -/
set_option linter.unusedSectionVars false
namespace Rstat
open F64 Consts Spec MeasureTheory ProbabilityTheory Set Filter Topology

theorem BetaDist.new_ok [FP] {a b : F64} {d : BetaDist} : BetaDist.new a b = .ok d ↔ 0 < a ∧ 0 < b ∧ d = ⟨a, b⟩ := by
  simp only [BetaDist.new, exc_bind_ok, Shape.new_ok]
  constructor
  · rintro ⟨_, ⟨h0, rfl⟩, _, ⟨h1, rfl⟩, h⟩; exact ⟨h0, h1, by cases h; rfl⟩
  · rintro ⟨h0, h1, rfl⟩; exact ⟨_, ⟨h0, rfl⟩, _, ⟨h1, rfl⟩, rfl⟩

/-- closed forms of the central moments of the Beta law -/
theorem beta_moments {a b : ℝ} (ha : 0 < a) (hb : 0 < b) :
    HasMeanVar (betaPDFReal a b) (a / (a + b)) (a * b / ((a + b) ^ 2 * (a + b + 1))) ∧
    HasSkew (betaPDFReal a b) (2 * (b - a) * Real.sqrt (a + b + 1) / (a + b + 2) / Real.sqrt (a * b)) ∧
    HasKurt (betaPDFReal a b)
      (3 + 6 * ((a - b) ^ 2 * (a + b + 1) - a * b * (a + b + 2)) / (a * b * (a + b + 2) * (a + b + 3))) := by
  obtain ⟨_, hD⟩ := beta_density ha hb
  obtain ⟨r1, r2, r3, r4⟩ := beta_raws ha hb
  obtain ⟨hv, m2, m3, m4⟩ := moments_of_raw hD r1 r2 r3 r4
  have hs : 0 < a + b := by linarith
  have ev : a * (a + 1) / ((a + b) * (a + b + 1)) - (a / (a + b)) ^ 2 = a * b / ((a + b) ^ 2 * (a + b + 1)) := by
    field_simp; ring
  rw [ev] at hv m2 m3 m4
  refine ⟨m2, ?_, ?_⟩
  · convert m3 using 1
    have hw : 0 < Real.sqrt (a * b) := Real.sqrt_pos.2 (by positivity)
    have ht : 0 < Real.sqrt (a + b + 1) := Real.sqrt_pos.2 (by positivity)
    have e2 : Real.sqrt (a * b / ((a + b) ^ 2 * (a + b + 1))) = Real.sqrt (a * b) / ((a + b) * Real.sqrt (a + b + 1)) := by
      rw [Real.sqrt_div (by positivity), Real.sqrt_mul (by positivity : 0 ≤ (a + b) ^ 2), Real.sqrt_sq hs.le]
    have w2 : Real.sqrt (a * b) ^ 3 = a * b * Real.sqrt (a * b) := by
      rw [pow_succ, Real.sq_sqrt (by positivity)]
    have t2 : Real.sqrt (a + b + 1) ^ 3 = (a + b + 1) * Real.sqrt (a + b + 1) := by
      rw [pow_succ, Real.sq_sqrt (by positivity)]
    rw [e2, div_pow (Real.sqrt (a * b)), mul_pow (a + b), w2, t2]
    generalize Real.sqrt (a * b) = w at *
    generalize Real.sqrt (a + b + 1) = t at *
    field_simp
    ring
  · convert m4 using 1
    field_simp
    ring

section
variable [FP] [FP.Exact] {a b : F64} {α β : ℝ} {d : BetaDist}

/-- C98: the Beta law: density inside the unit interval, distribution function on it, mean, variance, skewness,
entropy; interior mode when both shapes exceed 1. -/
theorem C98_beta (h : BetaDist.new a b = .ok d) (ha : a.Is α) (hb : b.Is β) :
    0 < α ∧ 0 < β ∧
    Computes d.pdf (betaPDFReal α β) (Ioo 0 1) ∧
    Computes (fun x => (d.cdf x).val) (betaCDF α β) (Icc 0 1) ∧
    IsCDF (betaCDF α β) ∧ IsDensityOf (betaPDFReal α β) (betaCDF α β) ∧
    (∃ μ v, d.mean.Is μ ∧ d.variance.Is v ∧ HasMeanVar (betaPDFReal α β) μ v) ∧
    (∃ κ, d.skewness.Is κ ∧ HasSkew (betaPDFReal α β) κ) ∧
    (∃ e, d.shannonEntropy.Is e ∧ HasEntropy (betaPDFReal α β) e) := by
  obtain ⟨h0, h1, rfl⟩ := BetaDist.new_ok.1 h
  have hα : 0 < α := pos_of_lt h0 ha
  have hβ : 0 < β := pos_of_lt h1 hb
  have hB := Beta_pos hα hβ
  obtain ⟨hF, hD⟩ := beta_density hα hβ
  obtain ⟨m1, m2, m3⟩ := beta_moments hα hβ
  refine ⟨hα, hβ, fun x t ht hx => ?_, fun x t ht hx => ?_, hF, hD, ⟨_, _, ?_, ?_, m1⟩, ⟨_, ?_, m2⟩, ⟨_, ?_, beta_entropy hα hβ⟩⟩
  · have h2 := ht.1
    have h3 : 0 < 1 - t := by linarith [ht.2]
    rw [betaPDF_inside ht, betaW]
    unfold BetaDist.pdf; dsimp only
    fev
  · have e : (BetaDist.cdf ⟨a, b⟩ x).val.Is (betaI t α β) := Is.betainc hx ha hb ht.1 ht.2 hα hβ
    refine e.congr ?_
    rw [betaCDF, if_neg (not_lt.2 ht.1)]
    split_ifs with h
    · rw [le_antisymm ht.2 h, betaI_one hα hβ]
    · rfl
  · unfold BetaDist.mean
    refine Is.congr (r := 1 / (1 + β / α)) (by fev) ?_
    field_simp
  · unfold BetaDist.variance; dsimp only
    refine Is.congr (r := α * β / ((α + β) * (α + β) * (α + β + 1))) (by fev) ?_
    ring
  · unfold BetaDist.skewness; dsimp only
    fev
  · unfold BetaDist.shannonEntropy; dsimp only
    refine Is.congr (r := Real.log (Beta α β) - (α - 1) * Spec.digamma α - (β - 1) * Spec.digamma β +
      ((α - 1) + (β - 1)) * Spec.digamma (α + β)) (by fev) (by ring)

/-- C142 (violated): the excess kurtosis is `3(α-β)²(α+β+1) - 1/(α+β+3)`, which agrees with the law's exactly when
`3(α-β)²(α+β+1)(2 - αβ(α+β+2)(α+β+3)) = 5αβ(α+β+2)`; never for a symmetric law (where it says `-1/(2α+3)` instead of
`-6/(2α+3)`), never when `αβ(α+β+2)(α+β+3) ≥ 2` (in particular when both shapes are at least 1/2). -/
theorem C142_beta_excess_kurtosis_violated (h : BetaDist.new a b = .ok d) (ha : a.Is α) (hb : b.Is β) :
    ∃ κ k, HasKurt (betaPDFReal α β) κ ∧ d.excessKurtosis.Is k ∧ d.kurtosis.Is (k + 3) ∧
      (k = κ - 3 ↔ 3 * (α - β) ^ 2 * (α + β + 1) * (2 - α * β * (α + β + 2) * (α + β + 3)) = 5 * (α * β) * (α + β + 2)) ∧
      (α = β → k ≠ κ - 3) ∧ (2 ≤ α * β * (α + β + 2) * (α + β + 3) → k ≠ κ - 3) ∧
      (1 / 2 ≤ α → 1 / 2 ≤ β → k ≠ κ - 3) := by
  obtain ⟨h0, h1, rfl⟩ := BetaDist.new_ok.1 h
  have hα : 0 < α := pos_of_lt h0 ha
  have hβ : 0 < β := pos_of_lt h1 hb
  obtain ⟨m1, m2, m3⟩ := beta_moments hα hβ
  have hk : (BetaDist.excessKurtosis ⟨a, b⟩).Is (3 * (α - β) * (α - β) * (α + β + 1) - 1 / (α + β + 3)) := by
    unfold BetaDist.excessKurtosis; dsimp only
    refine Is.congr (r := 3 * (α - β) * (α - β) * (α + β + 1) - α * β * (α + β + 2) / (α * β) / (α + β + 2) / (α + β + 3)) (by fev) ?_
    congr 2
    field_simp
  have hiff : (3 * (α - β) * (α - β) * (α + β + 1) - 1 / (α + β + 3) = 3 + 6 * ((α - β) ^ 2 * (α + β + 1) - α * β * (α + β + 2)) / (α * β * (α + β + 2) * (α + β + 3)) - 3 ↔
      3 * (α - β) ^ 2 * (α + β + 1) * (2 - α * β * (α + β + 2) * (α + β + 3)) = 5 * (α * β) * (α + β + 2)) := by
    have hp : 0 < α * β * (α + β + 2) * (α + β + 3) := by positivity
    rw [add_sub_cancel_left, eq_div_iff hp.ne']
    have e : (3 * (α - β) * (α - β) * (α + β + 1) - 1 / (α + β + 3)) * (α * β * (α + β + 2) * (α + β + 3)) =
      3 * (α - β) * (α - β) * (α + β + 1) * (α * β * (α + β + 2) * (α + β + 3)) - α * β * (α + β + 2) := by field_simp
    rw [e]
    constructor <;> intro h <;> linarith
  have hpos : 0 < 5 * (α * β) * (α + β + 2) := by positivity
  have hbig : 2 ≤ α * β * (α + β + 2) * (α + β + 3) → ¬ (3 * (α - β) * (α - β) * (α + β + 1) - 1 / (α + β + 3) = 3 + 6 * ((α - β) ^ 2 * (α + β + 1) - α * β * (α + β + 2)) / (α * β * (α + β + 2) * (α + β + 3)) - 3) := fun h2 hc => by
    have := hiff.1 hc
    have h3 : 0 ≤ 3 * (α - β) ^ 2 * (α + β + 1) := by positivity
    nlinarith
  refine ⟨_, _, m3, hk, hk.add (Is.num 3), hiff, fun e hc => ?_, hbig, fun e1 e2 => hbig ?_⟩
  · have := hiff.1 hc
    rw [e, sub_self] at this
    rw [e] at hpos
    rw [← this] at hpos
    simp at hpos
  · have p1 : 1 / 4 ≤ α * β := by nlinarith
    have p2 : 12 ≤ (α + β + 2) * (α + β + 3) := by nlinarith
    nlinarith

theorem BetaDist.tol_is : BetaDist.tol.Is (1 / 10 ^ 7) := Is.lit _

/-- C143 (what holds): `median` is the median for a symmetric law and when one shape is exactly 1 (and the other is not
within 1e-7 of it). -/
theorem C143_beta_median_partial (h : BetaDist.new a b = .ok d) (ha : a.Is α) (hb : b.Is β)
    (hc : α = β ∨ (α = 1 ∧ 1 / 10 ^ 7 ≤ |α - β|) ∨ (β = 1 ∧ 1 / 10 ^ 7 ≤ |α - β|)) :
    ∃ x, Returns d.median x ∧ x ∈ Ioo (0:ℝ) 1 ∧ betaCDF α β x = 1 / 2 := by
  obtain ⟨h0, h1, rfl⟩ := BetaDist.new_ok.1 h
  have hα : 0 < α := pos_of_lt h0 ha
  have hβ : 0 < β := pos_of_lt h1 hb
  have ht := BetaDist.tol_is
  have q1 : (a - b).abs < BetaDist.tol ↔ |α - β| < 1 / 10 ^ 7 := Is.lt_iff (ha.sub hb).abs ht
  have q2 : (a - 1).abs < BetaDist.tol ↔ |α - 1| < 1 / 10 ^ 7 := Is.lt_iff (ha.sub Is.one).abs ht
  have q3 : (b - 1).abs < BetaDist.tol ↔ |β - 1| < 1 / 10 ^ 7 := Is.lt_iff (hb.sub Is.one).abs ht
  have q4 : (1 : F64) < a ↔ 1 < α := Is.lt_iff Is.one ha
  have q5 : (1 : F64) < b ↔ 1 < β := Is.lt_iff Is.one hb
  have i1 : ((2 : F64).powf (F64.fin (-1) / b)).Is (2 ^ (-1 / β)) := Is.powf (Is.num 2) ((Is.fin _).div hb hβ.ne') two_pos
  have i2 : ((2 : F64).powf (F64.fin (-1) / a)).Is (2 ^ (-1 / α)) := Is.powf (Is.num 2) ((Is.fin _).div ha hα.ne') two_pos
  have pw : ∀ {s : ℝ}, 0 < s → 0 < (2:ℝ) ^ (-1 / s) ∧ (2:ℝ) ^ (-1 / s) < 1 ∧ ((2:ℝ) ^ (-1 / s)) ^ s = 1 / 2 := fun {s} hs => by
    refine ⟨by positivity, Real.rpow_lt_one_of_one_lt_of_neg one_lt_two (div_neg_of_neg_of_pos (by norm_num) hs), ?_⟩
    rw [← Real.rpow_mul two_pos.le, div_mul_cancel₀ _ hs.ne', Real.rpow_neg two_pos.le, Real.rpow_one]; norm_num
  unfold BetaDist.median Returns
  dsimp only
  simp only [q1, q2, q3, q4, q5]
  rcases hc with rfl | ⟨rfl, hc⟩ | ⟨rfl, hc⟩
  · rw [if_pos (by rw [sub_self, abs_zero]; norm_num)]
    exact ⟨1 / 2, ⟨_, rfl, Is.fin _⟩, ⟨by norm_num, by norm_num⟩, by rw [betaCDF_inside (by norm_num) (by norm_num), betaI_half hα]⟩
  · rw [if_neg (not_lt.2 hc), if_neg (fun h => lt_irrefl _ h.1), if_pos (by rw [sub_self, abs_zero]; norm_num)]
    obtain ⟨p1, p2, p3⟩ := pw hβ
    refine ⟨1 - 2 ^ (-1 / β), ⟨_, rfl, Is.one.sub i1⟩, ⟨by linarith, by linarith⟩, ?_⟩
    rw [betaCDF_inside (by linarith) (by linarith), betaI_a_one hβ (by linarith) (by linarith), sub_sub_cancel, p3]; norm_num
  · rw [if_neg (not_lt.2 hc), if_neg (fun h => lt_irrefl _ h.2)]
    have hne : ¬ |α - 1| < 1 / 10 ^ 7 := not_lt.2 hc
    rw [if_neg hne, if_pos (by rw [sub_self, abs_zero]; norm_num)]
    obtain ⟨p1, p2, p3⟩ := pw hα
    refine ⟨2 ^ (-1 / α), ⟨_, rfl, i2⟩, ⟨p1, p2⟩, ?_⟩
    rw [betaCDF_inside p1.le p2, betaI_b_one hα p1.le, p3]

/-- C143 (violated): for both shapes above 1 `median` returns the approximation `(α-1/3)/(α+β-2/3)`; for `β = 2` and
every odd integer `α ≥ 3` this is not the median. When one shape is below 1 and neither is near 1, nor the two near each
other, it panics although every Beta law has a median. -/
theorem C143_beta_median_violated (h : BetaDist.new a b = .ok d) (ha : a.Is α) (hb : b.Is β) :
    (∀ k : ℕ, α = 2 * k + 3 → β = 2 → ∃ x, Returns d.median x ∧ betaCDF α β x ≠ 1 / 2) ∧
    (1 / 10 ^ 7 ≤ |α - β| → (α < 1 ∨ β < 1) → 1 / 10 ^ 7 ≤ |α - 1| → 1 / 10 ^ 7 ≤ |β - 1| → d.median = .error .undefined) := by
  obtain ⟨h0, h1, rfl⟩ := BetaDist.new_ok.1 h
  have hα : 0 < α := pos_of_lt h0 ha
  have hβ : 0 < β := pos_of_lt h1 hb
  have ht := BetaDist.tol_is
  have q1 : (a - b).abs < BetaDist.tol ↔ |α - β| < 1 / 10 ^ 7 := Is.lt_iff (ha.sub hb).abs ht
  have q2 : (a - 1).abs < BetaDist.tol ↔ |α - 1| < 1 / 10 ^ 7 := Is.lt_iff (ha.sub Is.one).abs ht
  have q3 : (b - 1).abs < BetaDist.tol ↔ |β - 1| < 1 / 10 ^ 7 := Is.lt_iff (hb.sub Is.one).abs ht
  have q4 : (1 : F64) < a ↔ 1 < α := Is.lt_iff Is.one ha
  have q5 : (1 : F64) < b ↔ 1 < β := Is.lt_iff Is.one hb
  have q6 : (a - 3).abs < BetaDist.tol ↔ |α - 3| < 1 / 10 ^ 7 := Is.lt_iff (ha.sub (Is.num 3)).abs ht
  have q7 : (b - 3).abs < BetaDist.tol ↔ |β - 3| < 1 / 10 ^ 7 := Is.lt_iff (hb.sub (Is.num 3)).abs ht
  have q8 : (a - 2).abs < BetaDist.tol ↔ |α - 2| < 1 / 10 ^ 7 := Is.lt_iff (ha.sub (Is.num 2)).abs ht
  have q9 : (b - 2).abs < BetaDist.tol ↔ |β - 2| < 1 / 10 ^ 7 := Is.lt_iff (hb.sub (Is.num 2)).abs ht
  unfold BetaDist.median Returns
  dsimp only
  simp only [q1, q2, q3, q4, q5, q6, q7, q8, q9]
  constructor
  · rintro k rfl rfl
    have hk : (0:ℝ) ≤ k := Nat.cast_nonneg k
    rw [if_neg (by rw [abs_of_pos (by linarith)]; norm_num; linarith), if_pos ⟨by linarith, by norm_num⟩]
    refine ⟨(2 * k + 3 - 1 / 3) / (2 * k + 3 + 2 - 2 / 3), ⟨_, rfl, ?_⟩, ?_⟩
    · exact Is.div (ha.sub ONE_THIRD_is) ((ha.add hb).sub TWO_THIRDS_is) (by linarith)
    have hx0 : (0:ℝ) < (2 * k + 3 - 1 / 3) / (2 * k + 3 + 2 - 2 / 3) := div_pos (by linarith) (by linarith)
    have hx1 : (2 * k + 3 - 1 / 3 : ℝ) / (2 * k + 3 + 2 - 2 / 3) < 1 := (div_lt_one (by linarith)).2 (by linarith)
    have hxe : (2 * k + 3 - 1 / 3 : ℝ) / (2 * k + 3 + 2 - 2 / 3) = (6 * k + 8) / (6 * k + 13) := by
      rw [div_eq_div_iff (by linarith) (by linarith)]; ring
    rw [betaCDF_inside hx0.le hx1, betaI_b_two hα hx0, hxe]
    have he : ((6 * k + 8 : ℝ) / (6 * k + 13)) ^ (2 * (k:ℝ) + 3) = ((6 * k + 8 : ℝ) / (6 * k + 13)) ^ (2 * k + 3) := by
      rw [← Real.rpow_natCast]; push_cast; rfl
    rw [he]
    intro hc
    have hp : (0:ℝ) < 6 * k + 13 := by linarith
    have hc2 : (6 * (k:ℝ) + 8) ^ (2 * k + 3) * (2 * (16 * k + 28)) = (6 * k + 13) ^ (2 * k + 4) := by
      rw [div_pow, div_mul_eq_mul_div, div_eq_iff (by positivity)] at hc
      have e2 : (2 * (k:ℝ) + 3 + 1 - (2 * k + 3) * ((6 * k + 8) / (6 * k + 13))) = (16 * k + 28) / (6 * k + 13) := by
        field_simp; ring
      rw [e2, mul_div_assoc', div_eq_iff hp.ne'] at hc
      rw [show 2 * k + 4 = (2 * k + 3) + 1 from rfl, pow_succ (6 * (k:ℝ) + 13)]
      have h9 := hc
      have : (6 * (k:ℝ) + 8) ^ (2 * k + 3) * (16 * k + 28) * 2 = (6 * k + 13) ^ (2 * k + 3) * (6 * k + 13) := by rw [h9]; ring
      linarith
    have hc3 : (6 * k + 8) ^ (2 * k + 3) * (2 * (16 * k + 28)) = (6 * k + 13) ^ (2 * k + 4) := by exact_mod_cast hc2
    have hodd : Odd ((6 * k + 13) ^ (2 * k + 4)) := Odd.pow ⟨3 * k + 6, by ring⟩
    rw [← hc3] at hodd
    exact absurd (Even.mul_left (even_two_mul _) _) (Nat.not_even_iff_odd.2 hodd)
  · intro c1 c2 c3 c4
    rw [if_neg (not_lt.2 c1), if_neg (by rintro ⟨u, v⟩; rcases c2 with c | c <;> linarith), if_neg (not_lt.2 c3), if_neg (not_lt.2 c4)]
    have n1 : ¬ (|α - 3| < 1 / 10 ^ 7 ∧ |β - 2| < 1 / 10 ^ 7) := by
      rintro ⟨u, v⟩
      rw [abs_lt] at u v; norm_num at u v
      rcases c2 with c | c <;> linarith [u.1, v.1]
    have n2 : ¬ (|α - 2| < 1 / 10 ^ 7 ∧ |β - 3| < 1 / 10 ^ 7) := by
      rintro ⟨u, v⟩
      rw [abs_lt] at u v; norm_num at u v
      rcases c2 with c | c <;> linarith [u.1, v.1]
    rw [if_neg n1, if_neg n2]

/-- C144 (what holds): both shapes above 1: one interior maximiser; both below 1: the two end points, where the density
tends to infinity. -/
theorem C144_beta_modes_partial (h : BetaDist.new a b = .ok d) (ha : a.Is α) (hb : b.Is β) :
    (1 < α → 1 < β → ∃ x m, d.modes = [x] ∧ x.Is m ∧ IsMode (betaPDFReal α β) m) ∧
    (α < 1 → β < 1 → d.modes = [0, 1] ∧ Tendsto (betaPDFReal α β) (𝓝[>] 0) atTop ∧ Tendsto (betaPDFReal α β) (𝓝[<] 1) atTop) := by
  obtain ⟨h0, h1, rfl⟩ := BetaDist.new_ok.1 h
  have hα : 0 < α := pos_of_lt h0 ha
  have hβ : 0 < β := pos_of_lt h1 hb
  have q4 : (1 : F64) < a ↔ 1 < α := Is.lt_iff Is.one ha
  have q5 : (1 : F64) < b ↔ 1 < β := Is.lt_iff Is.one hb
  have q6 : a < 1 ↔ α < 1 := Is.lt_iff ha Is.one
  have q7 : b < 1 ↔ β < 1 := Is.lt_iff hb Is.one
  unfold BetaDist.modes
  simp only [q4, q5, q6, q7]
  constructor
  · intro c1 c2
    rw [if_pos ⟨c1, c2⟩]
    have : α + β - 2 ≠ 0 := by linarith
    exact ⟨_, _, rfl, by fev, beta_mode c1 c2⟩
  · intro c1 c2
    rw [if_neg (fun h => by linarith [h.1]), if_pos ⟨c1, c2⟩]
    refine ⟨rfl, (betaW_zero_top hα hβ c1).congr' ?_, (betaW_one_top hα hβ c2).congr' ?_⟩
    · filter_upwards [Ioo_mem_nhdsGT (zero_lt_one (α := ℝ))] with x hx
      exact (betaPDF_inside hx).symm
    · filter_upwards [Ioo_mem_nhdsLT (zero_lt_one (α := ℝ))] with x hx
      exact (betaPDF_inside hx).symm

/-- C144 (violated): when one shape is at most 1 and the other at least 1 (a monotone density, whose mode is an end
point: `pdf(0)` for `α ≤ 1 ≤ β`) no mode is reported. -/
theorem C144_beta_modes_violated (h : BetaDist.new a b = .ok d) (ha : a.Is α) (hb : b.Is β) (h1 : α ≤ 1) (h2 : 1 ≤ β) :
    d.modes = [] ∧ AntitoneOn (betaPDFReal α β) (Ioo 0 1) ∧
    (α = 1 → ∃ p, (d.pdf 0).Is p ∧ ∀ x ∈ Ioo (0:ℝ) 1, betaPDFReal α β x ≤ p) := by
  obtain ⟨h0, h1', rfl⟩ := BetaDist.new_ok.1 h
  have hα : 0 < α := pos_of_lt h0 ha
  have hβ : 0 < β := pos_of_lt h1' hb
  have hB := Beta_pos hα hβ
  have q4 : (1 : F64) < a ↔ 1 < α := Is.lt_iff Is.one ha
  have q5 : (1 : F64) < b ↔ 1 < β := Is.lt_iff Is.one hb
  have q6 : a < 1 ↔ α < 1 := Is.lt_iff ha Is.one
  have q7 : b < 1 ↔ β < 1 := Is.lt_iff hb Is.one
  refine ⟨?_, fun x hx y hy hxy => ?_, ?_⟩
  · unfold BetaDist.modes
    simp only [q4, q5, q6, q7]
    rw [if_neg (fun h => by linarith [h.1]), if_neg (fun h => by linarith [h.2])]
  · rw [betaPDF_inside hx, betaPDF_inside hy]; exact betaW_antitone hα h1 h2 hx hy hxy
  · rintro rfl
    refine ⟨β, ?_, fun x hx => ?_⟩
    · have e1 : ((0 : F64).powf (a - 1)).Is 1 := by
        have hz : (a - 1).Is 0 := (ha.sub Is.one).congr (by norm_num)
        unfold F64.powf
        rw [if_pos ⟨hz.isFinite, hz.toReal_eq⟩]; exact Is.fin 1
      have e2 : ((1 - 0 : F64).powf (b - 1)).Is ((1 - 0) ^ (β - 1)) := by fev
      unfold BetaDist.pdf; dsimp only
      refine ((e1.mul e2).div (ha.beta hb hα hβ) hB.ne').congr ?_
      rw [Beta_one_left hβ, sub_zero, Real.one_rpow]; field_simp
    · rw [betaPDF_inside hx, betaW, Beta_one_left hβ, sub_self, Real.rpow_zero, one_mul, div_div_eq_mul_div, div_one]
      have : (1 - x) ^ (β - 1) ≤ 1 := Real.rpow_le_one (by linarith [hx.2]) (by linarith [hx.1]) (by linarith)
      nlinarith

theorem BetaDist.JITTER_is : BetaDist.JITTER.Is (1 / 10 ^ 9) := Is.lit _

/-- what `log_likelihood` computes -/
theorem BetaDist.ll_is (ha : a.Is α) (hb : b.Is β) (hα : 0 < α) (hβ : 0 < β) (xs : List F64) (rs : List ℝ)
    (hx : List.Forall₂ Is xs rs) :
    (BetaDist.logLikelihood ⟨a, b⟩ xs).Is ((rs.map fun x => (α - 1) * Real.log (Max.max x (1 / 10 ^ 9)) +
      (β - 1) * Real.log (Max.max (1 - x) (1 / 10 ^ 9))).sum - rs.length * Real.log (Beta α β)) := by
  unfold BetaDist.logLikelihood
  dsimp only
  have hlen : xs.length = rs.length := hx.length_eq
  have hsum : List.Forall₂ Is (xs.map fun x => (a - 1) * (x.max BetaDist.JITTER).ln + (b - 1) * ((1 - x).max BetaDist.JITTER).ln)
      (rs.map fun x => (α - 1) * Real.log (Max.max x (1 / 10 ^ 9)) + (β - 1) * Real.log (Max.max (1 - x) (1 / 10 ^ 9))) := by
    clear hlen
    have hj := BetaDist.JITTER_is
    have hp : ∀ y : ℝ, 0 < Max.max y (1 / 10 ^ 9) := fun y => lt_of_lt_of_le (by norm_num) (le_max_right _ _)
    induction hx with
    | nil => exact .nil
    | cons h1 _ ih =>
      refine .cons ?_ ih
      exact ((ha.sub Is.one).mul ((h1.max hj).ln (hp _))).add ((hb.sub Is.one).mul (((Is.one.sub h1).max hj).ln (hp _)))
  rw [hlen]
  exact (Is.sum hsum).sub ((Is.ofNat _).mul (ha.logbeta hb hα hβ))

/-- C145 (what holds): for data at least 1e-9 away from both ends of the unit interval, `log_likelihood` is the sum of
the log-densities. -/
theorem C145_beta_log_likelihood_partial (h : BetaDist.new a b = .ok d) (ha : a.Is α) (hb : b.Is β) (xs : List F64) (rs : List ℝ)
    (hx : List.Forall₂ Is xs rs) (hp : ∀ x ∈ rs, 1 / 10 ^ 9 ≤ x ∧ x ≤ 1 - 1 / 10 ^ 9) :
    (d.logLikelihood xs).Is (logLik (betaPDFReal α β) rs) := by
  obtain ⟨h0, h1', rfl⟩ := BetaDist.new_ok.1 h
  have hα : 0 < α := pos_of_lt h0 ha
  have hβ : 0 < β := pos_of_lt h1' hb
  refine (BetaDist.ll_is ha hb hα hβ xs rs hx).congr ?_
  have hin : ∀ x ∈ rs, x ∈ Ioo (0:ℝ) 1 := fun x hx =>
    ⟨lt_of_lt_of_le (by norm_num) (hp x hx).1, lt_of_le_of_lt (hp x hx).2 (by norm_num)⟩
  rw [beta_logLik hα hβ rs hin]
  congr 1
  clear hx hin
  induction rs with
  | nil => simp
  | cons x rs ih =>
    have h2 := hp x (by simp)
    rw [List.map_cons, List.sum_cons, ih fun y hy => hp y (by simp [hy]), List.map_cons, List.sum_cons, List.map_cons,
      List.sum_cons, max_eq_left h2.1, max_eq_left (show 1 / 10 ^ 9 ≤ 1 - x by linarith [h2.2])]
    ring

/-- C145 (violated): an observation in the support but below 1e-9 is silently moved to 1e-9: unless `α = 1` the result
is not the log-likelihood. -/
theorem C145_beta_log_likelihood_violated (h : BetaDist.new a b = .ok d) (ha : a.Is α) (hb : b.Is β) {x : F64} {t : ℝ}
    (hx : x.Is t) (h0 : 0 < t) (h1 : t < 1 / 10 ^ 9) :
    (d.logLikelihood [x]).Is (logLik (betaPDFReal α β) [t]) ↔ α = 1 := by
  obtain ⟨h0', h1', rfl⟩ := BetaDist.new_ok.1 h
  have hα : 0 < α := pos_of_lt h0' ha
  have hβ : 0 < β := pos_of_lt h1' hb
  have e := BetaDist.ll_is ha hb hα hβ [x] [t] (.cons hx .nil)
  have ht1 : t < 1 / 2 := lt_trans h1 (by norm_num)
  have hin : t ∈ Ioo (0:ℝ) 1 := ⟨h0, by linarith⟩
  have e2 := beta_logLik hα hβ [t] (by simpa using hin)
  simp only [List.map_cons, List.map_nil, List.sum_cons, List.sum_nil] at e e2
  have hh : (1:ℝ) / 10 ^ 9 ≤ 1 / 2 := by norm_num
  rw [max_eq_right h1.le, max_eq_left (show (1:ℝ) / 10 ^ 9 ≤ 1 - t by linarith)] at e
  have hl : Real.log t < Real.log (1 / 10 ^ 9) := Real.log_lt_log h0 h1
  rw [e2]
  constructor
  · intro hc
    have h3 := e.eq hc
    have h4 : (α - 1) * (Real.log (1 / 10 ^ 9) - Real.log t) = 0 := by linarith
    rcases mul_eq_zero.1 h4 with h5 | h5 <;> linarith
  · rintro rfl
    exact e.congr (by ring)

theorem beta_score_fold {A B C : F64} {ψa ψb ψ : ℝ} (hA : A.Is ψa) (hB : B.Is ψb) (hC : C.Is ψ) (xs : List F64) (rs : List ℝ)
    (hx : List.Forall₂ Is xs rs) (hp : ∀ x ∈ rs, 1 / 10 ^ 9 ≤ x ∧ x ≤ 1 - 1 / 10 ^ 9) : ∀ (p : F64 × F64) (u v : ℝ), p.1.Is u → p.2.Is v →
    (xs.foldl (fun (acc : F64 × F64) x => (acc.1 + (x.max BetaDist.JITTER).ln - A + C, acc.2 + ((1 - x).max BetaDist.JITTER).ln - B + C)) p).1.Is
      (u + (rs.map Real.log).sum - rs.length * (ψa - ψ)) ∧
    (xs.foldl (fun (acc : F64 × F64) x => (acc.1 + (x.max BetaDist.JITTER).ln - A + C, acc.2 + ((1 - x).max BetaDist.JITTER).ln - B + C)) p).2.Is
      (v + (rs.map fun x => Real.log (1 - x)).sum - rs.length * (ψb - ψ)) := by
  induction hx with
  | nil => intro p u v hu hv; exact ⟨hu.congr (by simp), hv.congr (by simp)⟩
  | @cons x t xs rs h1 _ ih =>
    intro p u v hu hv
    have h0 := hp t (List.mem_cons_self ..)
    have hj := BetaDist.JITTER_is
    have hq : (0:ℝ) < 1 / 10 ^ 9 := by norm_num
    have hm : (x.max BetaDist.JITTER).Is t := (h1.max hj).congr (max_eq_left h0.1)
    have hm' : ((1 - x).max BetaDist.JITTER).Is (1 - t) := ((Is.one.sub h1).max hj).congr (max_eq_left (by linarith [h0.2]))
    have := ih (fun y hy => hp y (by simp [hy])) (p.1 + (x.max BetaDist.JITTER).ln - A + C, p.2 + ((1 - x).max BetaDist.JITTER).ln - B + C) _ _
      (((hu.add (hm.ln (by linarith [h0.1]))).sub hA).add hC) (((hv.add (hm'.ln (by linarith [h0.2]))).sub hB).add hC)
    rw [List.foldl_cons]
    refine ⟨this.1.congr ?_, this.2.congr ?_⟩
    · rw [List.map_cons, List.sum_cons, List.length_cons]; push_cast; ring
    · rw [List.map_cons, List.sum_cons, List.length_cons]; push_cast; ring

/-- C146: for data at least 1e-9 away from both ends of the unit interval, `score` is the gradient of the log-likelihood
in (α, β). -/
theorem C146_beta_score_partial (h : BetaDist.new a b = .ok d) (ha : a.Is α) (hb : b.Is β) (xs : List F64) (rs : List ℝ)
    (hx : List.Forall₂ Is xs rs) (hp : ∀ x ∈ rs, 1 / 10 ^ 9 ≤ x ∧ x ≤ 1 - 1 / 10 ^ 9) :
    ∃ ga gb, (d.score xs).alpha.Is ga ∧ (d.score xs).beta.Is gb ∧
      HasDerivAt (fun t => logLik (betaPDFReal t β) rs) ga α ∧ HasDerivAt (fun t => logLik (betaPDFReal α t) rs) gb β := by
  obtain ⟨h0', h1', rfl⟩ := BetaDist.new_ok.1 h
  have hα : 0 < α := pos_of_lt h0' ha
  have hβ : 0 < β := pos_of_lt h1' hb
  have hin : ∀ x ∈ rs, x ∈ Ioo (0:ℝ) 1 := fun x hx =>
    ⟨lt_of_lt_of_le (by norm_num) (hp x hx).1, lt_of_le_of_lt (hp x hx).2 (by norm_num)⟩
  obtain ⟨d1, d2⟩ := beta_logLik_derivs hα hβ rs hin
  obtain ⟨f1, f2⟩ := beta_score_fold (ha.digamma hα) (hb.digamma hβ) ((ha.add hb).digamma (add_pos hα hβ)) xs rs hx hp (0, 0) 0 0 Is.zero Is.zero
  refine ⟨_, _, ?_, ?_, d1, d2⟩
  · unfold BetaDist.score; dsimp only
    exact f1.congr (by ring)
  · unfold BetaDist.score; dsimp only
    exact f2.congr (by ring)

/-- C146 (violated): one observation in the support but below 1e-9: the shape component is not the derivative. -/
theorem C146_beta_score_violated (h : BetaDist.new a b = .ok d) (ha : a.Is α) (hb : b.Is β) {x : F64} {t : ℝ}
    (hx : x.Is t) (h0 : 0 < t) (h1 : t < 1 / 10 ^ 9) :
    ∃ ga, HasDerivAt (fun s => logLik (betaPDFReal s β) [t]) ga α ∧ ¬ (d.score [x]).alpha.Is ga := by
  obtain ⟨h0', h1', rfl⟩ := BetaDist.new_ok.1 h
  have hα : 0 < α := pos_of_lt h0' ha
  have hβ : 0 < β := pos_of_lt h1' hb
  have hin : t ∈ Ioo (0:ℝ) 1 := ⟨h0, lt_trans h1 (by norm_num)⟩
  obtain ⟨d1, _⟩ := beta_logLik_derivs hα hβ [t] (by simpa using hin)
  refine ⟨_, d1, fun hc => ?_⟩
  have hq : (0:ℝ) < 1 / 10 ^ 9 := by norm_num
  have e : (BetaDist.score ⟨a, b⟩ [x]).alpha.Is (0 + Real.log (1 / 10 ^ 9) - Spec.digamma α + Spec.digamma (α + β)) := by
    unfold BetaDist.score
    simp only [List.foldl_cons, List.foldl_nil]
    have hm : (x.max BetaDist.JITTER).Is (1 / 10 ^ 9) := (hx.max BetaDist.JITTER_is).congr (max_eq_right h1.le)
    exact ((Is.zero.add (hm.ln hq)).sub (ha.digamma hα)).add ((ha.add hb).digamma (add_pos hα hβ))
  have h3 := e.eq hc
  simp only [List.map_cons, List.map_nil, List.sum_cons, List.sum_nil, List.length_cons, List.length_nil] at h3
  push_cast at h3
  have hl : Real.log t < Real.log (1 / 10 ^ 9) := Real.log_lt_log h0 h1
  linarith

/-- C147 (violated): a density cannot be negative, but for `β = 2` (any `α`) `pdf` is negative at every point beyond the
support. -/
theorem C147_beta_pdf_negative_violated (h : BetaDist.new a b = .ok d) (ha : a.Is α) (hb : b.Is 2) {x : F64} {t : ℝ}
    (hx : x.Is t) (ht : 1 < t) : ∃ p, (d.pdf x).Is p ∧ p < 0 := by
  obtain ⟨h0', h1', rfl⟩ := BetaDist.new_ok.1 h
  have hα : 0 < α := pos_of_lt h0' ha
  have hB := Beta_pos hα two_pos
  have h1 : (b - 1).Is 1 := (hb.sub Is.one).congr (by norm_num)
  have h2 := ((powf_neg_base (Is.one.sub hx) h1 (by linarith) one_ne_zero).2.1 ⟨1, by norm_num⟩ ⟨1, by norm_num, odd_one⟩)
  have ht0 : 0 < t := by linarith
  refine ⟨t ^ (α - 1) * -(-(1 - t)) ^ (1:ℝ) / Beta α 2, ?_, ?_⟩
  · unfold BetaDist.pdf; dsimp only
    exact ((Is.powf hx (ha.sub Is.one) ht0).mul h2).div (ha.beta hb hα two_pos) hB.ne'
  · rw [Real.rpow_one]
    refine div_neg_of_neg_of_pos (mul_neg_of_pos_of_neg (by positivity) (by linarith)) hB

end

section
attribute [local instance] exactFP exactFP_exact
theorem beta_ex : BetaDist.new (fin 3) (fin 2) = .ok ⟨fin 3, fin 2⟩ :=
  BetaDist.new_ok.2 ⟨fin_lt_fin.2 (by norm_num), fin_lt_fin.2 (by norm_num), rfl⟩
theorem beta_ex2 : BetaDist.new (fin 1) (fin 2) = .ok ⟨fin 1, fin 2⟩ :=
  BetaDist.new_ok.2 ⟨fin_lt_fin.2 (by norm_num), fin_lt_fin.2 (by norm_num), rfl⟩
example : Computes (fun x => (BetaDist.cdf ⟨fin 3, fin 2⟩ x).val) (betaCDF 3 2) (Icc 0 1) :=
  (C98_beta beta_ex (Is.fin 3) (Is.fin 2)).2.2.2.1
/-- Beta(3, 2): the reported median (8/13) is not the median -/
example : ∃ x, Returns (BetaDist.median ⟨fin 3, fin 2⟩) x ∧ betaCDF 3 2 x ≠ 1 / 2 :=
  (C143_beta_median_violated beta_ex (Is.fin 3) (Is.fin 2)).1 0 (by norm_num) rfl
/-- Beta(1, 2): the reported median is right -/
example : ∃ x, Returns (BetaDist.median ⟨fin 1, fin 2⟩) x ∧ x ∈ Ioo (0:ℝ) 1 ∧ betaCDF 1 2 x = 1 / 2 :=
  C143_beta_median_partial beta_ex2 (Is.fin 1) (Is.fin 2) (Or.inr (Or.inl ⟨rfl, by norm_num⟩))
example : BetaDist.modes ⟨fin 1, fin 2⟩ = [] :=
  (C144_beta_modes_violated beta_ex2 (Is.fin 1) (Is.fin 2) (by norm_num) (by norm_num)).1
example : ∃ p, (BetaDist.pdf ⟨fin 3, fin 2⟩ (fin 2)).Is p ∧ p < 0 :=
  C147_beta_pdf_negative_violated beta_ex (Is.fin 3) (Is.fin 2) (Is.fin 2) (by norm_num)
example : ∃ κ k, HasKurt (betaPDFReal 3 2) κ ∧ (BetaDist.excessKurtosis ⟨fin 3, fin 2⟩).Is k ∧ k ≠ κ - 3 := by
  obtain ⟨κ, k, h1, h2, _, _, _, h3, _⟩ := C142_beta_excess_kurtosis_violated beta_ex (Is.fin 3) (Is.fin 2)
  exact ⟨κ, k, h1, h2, h3 (by norm_num)⟩
/-- a two-point sample: log-likelihood and score are right -/
example : (BetaDist.logLikelihood ⟨fin 3, fin 2⟩ [fin (1/2), fin (1/3)]).Is (logLik (betaPDFReal 3 2) [1/2, 1/3]) :=
  C145_beta_log_likelihood_partial beta_ex (Is.fin 3) (Is.fin 2) _ _ (.cons (Is.fin _) (.cons (Is.fin _) .nil))
    (by intro x hx; simp at hx; rcases hx with rfl | rfl <;> norm_num)
end
end Rstat
