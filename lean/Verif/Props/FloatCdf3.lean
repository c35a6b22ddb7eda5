import Verif.Props.FloatCdf
import Verif.Lemmas.B64Eval
import Verif.Props.Dist.Cauchy
import Verif.Props.Dist.Arcsine
import Verif.Props.Dist.Uniform

/-! C205, C206: distribution functions whose correctness in floating point depends on the actual constants and error bounds
of binary64: Cauchy, Arcsine (`fl(1/π)`, `fl(2/π)` times `fl(π/2)` must give 1/2 and 1) and Uniform (`(x - lb) * fl(1/width)`
must not exceed 1). -/
namespace Rstat
open F64 Spec Consts
set_option linter.unusedSectionVars false

section
variable [FP] [FP.Lawful] [FP.Libm]

theorem atan_fin {a : F64} {r : ℝ} (ha : a.Is r) : (a.atan).ext = (F64.round (FP.fatan r)).ext := by
  rcases ha with rfl | ⟨rfl, rfl⟩
  · rfl
  · rw [FP.Libm.atan_zero]
    change negZero.ext = _
    rw [round_zero_is.ext_eq, Is.negZero.ext_eq]

theorem atan_ne_nan {a : F64} (ha : a ≠ nan) : a.atan ≠ nan := by
  cases a <;> simp [F64.atan, round_ne_nan] at ha ⊢

theorem atan_mono {a b : F64} (h : a ≤ b) : a.atan ≤ b.atan := by
  obtain ⟨ha, hb, h⟩ := le_cases.1 h
  have lo : ∀ c : F64, c ≠ nan → ninf.atan ≤ c.atan := fun c hc => by
    have hpi := Real.pi_pos
    cases c with
    | nan => exact absurd rfl hc
    | ninf => exact le_rfl' (round_ne_nan _)
    | pinf => exact round_mono (by linarith)
    | negZero => exact le_congr rfl (atan_fin Is.negZero).symm (round_mono (FP.Libm.atan_ge 0))
    | fin r => exact round_mono (FP.Libm.atan_ge r)
  have hi : ∀ c : F64, c ≠ nan → c.atan ≤ pinf.atan := fun c hc => by
    have hpi := Real.pi_pos
    cases c with
    | nan => exact absurd rfl hc
    | ninf => exact round_mono (by linarith)
    | pinf => exact le_rfl' (round_ne_nan _)
    | negZero => exact le_congr (atan_fin Is.negZero).symm rfl (round_mono (FP.Libm.atan_le 0))
    | fin r => exact round_mono (FP.Libm.atan_le r)
  rcases h with rfl | rfl | ⟨r, s, hr, hs, h⟩
  · exact lo b hb
  · exact hi a ha
  · exact le_congr (atan_fin hr).symm (atan_fin hs).symm (round_mono (FP.Libm.atan_mono h))

theorem asin_fin {a : F64} {r : ℝ} (ha : a.Is r) (h1 : -1 ≤ r) (h2 : r ≤ 1) : (a.asin).ext = (F64.round (FP.fasin r)).ext := by
  rcases ha with rfl | ⟨rfl, rfl⟩
  · unfold F64.asin; simp only; rw [if_neg (by push Not; exact ⟨h1, h2⟩)]
  · rw [FP.Libm.asin_zero]
    change negZero.ext = _
    rw [round_zero_is.ext_eq, Is.negZero.ext_eq]

theorem asin_mono {a b : F64} (h0 : 0 ≤ a) (h : a ≤ b) (h1 : b ≤ 1) : a.asin ≤ b.asin := by
  obtain ⟨ha, ha0, ha1⟩ := is_of_le_le Is.zero Is.one h0 (le_trans' h h1)
  obtain ⟨hb, hb0, hb1⟩ := is_of_le_le Is.zero Is.one (le_trans' h0 h) h1
  have hab := (ha.le_iff hb).1 h
  exact le_congr (asin_fin ha (by linarith) ha1).symm (asin_fin hb (by linarith) hb1).symm
    (round_mono (FP.Libm.asin_mono _ _ (by linarith) hab hb1))

/-- the square root of a number in [0,1] is in [0,1] -/
theorem sqrt_le_one {a : F64} (h0 : 0 ≤ a) (h1 : a ≤ 1) : a.sqrt ≤ 1 := by
  have h := sqrt_mono h0 h1
  have e : (1 : F64).sqrt = fin 1 := by
    change (fin 1).sqrt = _
    simp only [F64.sqrt]; rw [if_neg (by norm_num), Real.sqrt_one, round_one]
  rwa [e] at h

/-- C205 (violation): whenever the width recovered from the end points of the support, `(a + w) - a`, exceeds `w` by a few units in the
last place (which happens for `w` small against `a`), the Arcsine cdf at the upper end of its own support is NaN. -/
theorem C205_arcsine_violated {a b : F64} {y s : ℝ} {d : Arcsine} (h : Arcsine.new a b = .ok d) (hb : b.Is s)
    (hrec : (d.support.2 - a).Is y) (hy : s * (1 + 1 / 2 ^ 50) ≤ y) : (d.cdf d.support.2).val = nan := by
  obtain ⟨h0, rfl⟩ := Arcsine.new_ok.1 h
  have hs : 0 < s := pos_of_lt h0 hb
  have eb := hb.eq_fin hs.ne'
  subst eb
  change (a + fin s - a).Is y at hrec
  have r1 : FP.rnd ((1:ℝ) + 1 / 2 ^ 50) = 1 + 1 / 2 ^ 50 := by
    have := FP.Lawful.rnd_dyadic (2 ^ 50 + 1) 50 (by norm_num) (by norm_num)
    have e : (((2 ^ 50 + 1 : ℤ) : ℝ) / 2 ^ 50) = 1 + 1 / 2 ^ 50 := by norm_num
    rwa [e] at this
  have r2 : FP.rnd ((1:ℝ) + 1 / 2 ^ 52) = 1 + 1 / 2 ^ 52 := by
    have := FP.Lawful.rnd_dyadic (2 ^ 52 + 1) 52 (by norm_num) (by norm_num)
    have e : (((2 ^ 52 + 1 : ℤ) : ℝ) / 2 ^ 52) = 1 + 1 / 2 ^ 52 := by norm_num
    rwa [e] at this
  have nh : ∀ x : ℝ, |x| ≤ 2 → ¬ FP.huge x := fun x hx => FP.Lawful.not_huge _ (hx.trans (by
    have := pow_le_pow_right₀ (a := (2:ℝ)) (by norm_num) (show 1 ≤ 1023 by norm_num); simpa using this))
  have hz : fin (1 + 1 / 2 ^ 50) ≤ (a + fin s - a) / fin s := by
    have e := div_fin_ext hrec (Is.fin s) hs.ne'
    refine le_congr rfl e.symm (le_round_of_le ?_ r1 (nh _ (by rw [abs_of_pos (by positivity)]; norm_num)))
    rw [le_div_iff₀ hs]; linarith
  have hq : fin (1 + 1 / 2 ^ 52) ≤ ((a + fin s - a) / fin s).sqrt := by
    refine le_trans' ?_ (sqrt_mono (le_trans' zero_le_one' (fin_le_fin.2 (by norm_num))) hz)
    have e : (fin (1 + 1 / 2 ^ 50)).sqrt = F64.round (Real.sqrt (1 + 1 / 2 ^ 50)) := by
      simp only [F64.sqrt]; rw [if_neg (by norm_num)]
    rw [e]
    refine le_round_of_le ?_ r2 (nh _ (by rw [abs_of_pos (by positivity)]; norm_num))
    apply Real.le_sqrt_of_sq_le; norm_num
  change TWO_OVER_PI * ((a + fin s - a) / fin s).sqrt.asin = nan
  have e : ((a + fin s - a) / fin s).sqrt.asin = nan := by
    generalize ((a + fin s - a) / fin s).sqrt = q at hq
    cases q with
    | fin r =>
      have := fin_le_fin.1 hq
      unfold F64.asin
      simp only
      rw [if_pos (Or.inr (lt_of_lt_of_le (by norm_num) this))]
    | negZero => exact absurd ((Is.fin _).le_iff Is.negZero |>.1 hq) (by norm_num)
    | _ => rfl
  rw [e]
  cases TWO_OVER_PI <;> rfl
end

section
attribute [local instance] binary64 binary64_lawful B64.libm
open B64

theorem one_over_pi_atan_top : ONE_OVER_PI * pinf.atan = fin (1 / 2) := by
  change ONE_OVER_PI * F64.round (Real.pi / 2) = _
  rw [round_pi_half, one_over_pi_eq, mul_finite (Is.fin _) (Is.fin _), if_neg (by norm_num), one_over_pi_mul]

theorem one_over_pi_atan_bot : ONE_OVER_PI * ninf.atan = fin (-(1 / 2)) := by
  have e : ninf.atan = fin (-(884279719003555 / 562949953421312)) := by
    change F64.round (-(Real.pi / 2)) = _
    refine round_eq ?_ (by rw [abs_neg, abs_of_pos (by norm_num)]; norm_num) (by norm_num)
    rw [rnd_neg, rnd_pi_half]
  rw [e, one_over_pi_eq, mul_finite (Is.fin _) (Is.fin _), if_neg (by norm_num)]
  refine round_eq ?_ (by rw [abs_neg, abs_of_pos (by norm_num)]; norm_num) (by norm_num)
  rw [mul_neg, rnd_neg]
  have := rnd_eq (x := 5734161139222659 / 18014398509481984 * (884279719003555 / 562949953421312)) (2 ^ 52) (-53) (by norm_num)
    (by norm_num) (by norm_num) (by rw [abs_lt, zpow_neg]; norm_num)
  rw [this, zpow_neg]; norm_num

/-- C205: Cauchy in binary64 — for all finite parameters accepted by `new`, the cdf is a distribution function over the whole f64 line,
exactly 0 at `-inf` and exactly 1 at `+inf`. -/
theorem C205_cauchy {a b : F64} {d : Cauchy} (h : Cauchy.new a b = .ok d) (ha : a.isFinite) (hb : b.isFinite) :
    FloatCDF d.cdf ninf pinf := by
  obtain ⟨h0, rfl⟩ := Cauchy.new_ok.1 h
  obtain ⟨s, rfl, hs⟩ := finite_pos h0 hb
  refine FloatCDF.of ninf_le_pinf (fun x y _ hxy _ => ?_) ?_ ?_
  · change ONE_OVER_PI * ((x - a) / fin s).atan + fin (1 / 2) ≤ ONE_OVER_PI * ((y - a) / fin s).atan + fin (1 / 2)
    rw [one_over_pi_eq]
    exact add_const_mono (Is.fin _) (const_mul_mono (by norm_num) (atan_mono (z_mono ha hs hxy)))
  · change (ONE_OVER_PI * ((ninf - a) / fin s).atan + fin (1 / 2)).Is 0
    rw [z_bot ha hs, one_over_pi_atan_bot]
    exact (add_is (Is.fin _) (Is.fin _) (by norm_num; rw [F64.rnd_zero]; exact not_huge_zero)).congr (by norm_num; exact F64.rnd_zero)
  · change (ONE_OVER_PI * ((pinf - a) / fin s).atan + fin (1 / 2)).Is 1
    rw [z_top ha hs, one_over_pi_atan_top]
    exact (add_is (Is.fin _) (Is.fin _) (by norm_num; rw [F64.rnd_one]; exact not_huge_one)).congr (by norm_num; exact F64.rnd_one)

/-- C205: Arcsine in binary64, on its support `[a, a + w]`, provided the width is recovered exactly from the end points. -/
theorem C205_arcsine_partial {a b : F64} {s : ℝ} {d : Arcsine} (h : Arcsine.new a b = .ok d) (ha : a.isFinite) (hb : b.Is s)
    (hrec : (d.support.2 - a).Is s) : FloatCDF d.cdf d.support.1 d.support.2 := by
  obtain ⟨h0, rfl⟩ := Arcsine.new_ok.1 h
  have hs : 0 < s := pos_of_lt h0 hb
  have eb := hb.eq_fin hs.ne'
  subst eb
  change (a + fin s - a).Is s at hrec
  change FloatCDF _ a (a + fin s)
  have haa : a - a ≤ a + fin s - a ∧ (a - a).Is 0 := by
    have e : (a - a).Is 0 := by
      rcases add_eq_round ha.is ha.is.neg with h' | ⟨h', h'', _⟩
      · change (a + -a).Is 0
        rw [h', add_neg_cancel]; exact round_zero_is
      · rw [h'] at h''; cases h''
    exact ⟨(e.le_iff hrec).2 hs.le, e⟩
  have hab : a ≤ a + fin s := by
    have h1 := add_const_mono (a := 0) (b := fin s) ha.is (fin_le_fin.2 hs.le)
    by_contra hc
    have nn : a + fin s ≠ nan := fun hc => by rw [hc] at hrec; exact hrec.ne_nan rfl
    rcases le_total' (ha.is.ne_nan) nn with h | h
    · exact hc h
    · have := sub_const_mono ha.is (le_of_lt' h)
      have := (hrec.le_iff haa.2).1 this
      linarith
  have q0 : ∀ x : F64, a ≤ x → (0:F64) ≤ (x - a) / fin s := fun x hx => by
    have h1 := div_const_mono hs (sub_const_mono ha.is hx)
    refine le_trans' (le_congr rfl (div_fin_ext haa.2 (Is.fin s) hs.ne').symm ?_) h1
    rw [zero_div]; exact (Is.zero.le_iff round_zero_is).2 le_rfl
  have qtop : (a + fin s - a) / fin s = fin 1 := by
    rw [div_finite hrec (Is.fin s) hs.ne', if_neg hs.ne', div_self hs.ne', round_one]
  have q1 : ∀ x : F64, x ≤ a + fin s → (x - a) / fin s ≤ 1 := fun x hx => by
    have h1 := div_const_mono hs (sub_const_mono ha.is hx)
    rwa [qtop] at h1
  refine FloatCDF.of hab (fun x y hx hxy hy => ?_) ?_ ?_
  · change TWO_OVER_PI * ((x - a) / fin s).sqrt.asin ≤ TWO_OVER_PI * ((y - a) / fin s).sqrt.asin
    rw [two_over_pi_eq]
    refine const_mul_mono (by norm_num) (asin_mono (sqrt_nonneg (q0 x hx)) (sqrt_mono (q0 x hx) ?_)
      (sqrt_le_one (q0 y (le_trans' hx hxy)) (q1 y hy)))
    exact div_const_mono hs (sub_const_mono ha.is hxy)
  · change (TWO_OVER_PI * ((a - a) / fin s).sqrt.asin).Is 0
    have e1 : ((a - a) / fin s).Is 0 := by
      rw [div_finite haa.2 (Is.fin s) hs.ne', if_pos rfl]; exact szero_is _
    have e2 : ((a - a) / fin s).sqrt.asin.Is 0 := by
      rcases e1 with h | ⟨h, _⟩
      · rw [h]; simp only [F64.sqrt]
        rw [if_neg (lt_irrefl _), Real.sqrt_zero]
        exact round_zero_is.of_ext (by
          have := asin_fin (round_zero_is) (by norm_num) (by norm_num)
          rw [this, FP.Libm.asin_zero])
      · rw [h]; exact Is.negZero
    rw [mul_finite (by rw [two_over_pi_eq]; exact Is.fin _) e2, if_pos (mul_zero _)]; exact szero_is _
  · change (TWO_OVER_PI * ((a + fin s - a) / fin s).sqrt.asin).Is 1
    rw [qtop]
    have e1 : (fin 1).sqrt = fin 1 := by
      simp only [F64.sqrt]; rw [if_neg (by norm_num), Real.sqrt_one, round_one]
    have e2 : (fin 1).asin = F64.round (Real.pi / 2) := by
      unfold F64.asin; simp only; rw [if_neg (by norm_num), FP.Libm.asin_one]
    rw [e1, e2, round_pi_half, two_over_pi_eq, mul_finite (Is.fin _) (Is.fin _), if_neg (by norm_num), two_over_pi_mul]
    exact Is.fin 1

example : ∃ d, Cauchy.new (fin (-3)) (fin 5) = .ok d ∧ FloatCDF d.cdf ninf pinf :=
  have h : Cauchy.new (fin (-3)) (fin 5) = .ok ⟨fin (-3), fin 5⟩ := Cauchy.new_ok.2 ⟨fin_lt_fin.2 (by norm_num), rfl⟩
  ⟨_, h, C205_cauchy h trivial trivial⟩

theorem fin_ops {x y : ℝ} (n : ℤ) (hn : |n| ≤ 2 ^ 10) (h : x + y = n) : (fin x + fin y).Is n := by
  have hr : B64.rnd (n:ℝ) = n := by
    have := rnd_repr n 0 (hn.trans (by norm_num)) (by norm_num); simpa using this
  have hh : ¬ FP.huge (n:ℝ) := binary64_lawful.not_huge _ (by
    have h1 : |(n:ℝ)| ≤ 2 ^ 10 := by exact_mod_cast hn
    exact h1.trans (pow_le_pow_right₀ (by norm_num) (by norm_num)))
  refine (add_is (Is.fin x) (Is.fin y) ?_).congr ?_
  · rw [h]; change ¬ FP.huge (B64.rnd (n:ℝ)); rw [hr]; exact hh
  · rw [h]; exact hr

example : ∃ d, Arcsine.new (fin 1) (fin 2) = .ok d ∧ FloatCDF d.cdf (fin 1) d.support.2 := by
  have h : Arcsine.new (fin 1) (fin 2) = .ok ⟨fin 1, fin 2⟩ := Arcsine.new_ok.2 ⟨fin_lt_fin.2 (by norm_num), rfl⟩
  refine ⟨_, h, C205_arcsine_partial h trivial (Is.fin 2) ?_⟩
  have e : fin 1 + fin 2 = fin 3 := ((fin_ops 3 (by norm_num) (by norm_num)).congr (by norm_num : ((3:ℤ):ℝ) = 3)).eq_fin (by norm_num)
  change (fin 1 + fin 2 - fin 1).Is 2
  rw [e]
  change (fin 3 + -(fin 1)).Is 2
  rw [(Is.fin 1).neg.eq_fin (by norm_num)]
  exact (fin_ops (x := 3) (y := -1) 2 (by norm_num) (by norm_num)).congr (by norm_num : ((2:ℤ):ℝ) = 2)

/-- a width of 1.75 ulp next to 1: the cdf at the upper end of the support is NaN -/
example : ∃ d, Arcsine.new (fin 1) (fin (7 / 2 ^ 54)) = .ok d ∧ (d.cdf d.support.2).val = nan := by
  have h : Arcsine.new (fin 1) (fin (7 / 2 ^ 54)) = .ok ⟨fin 1, fin (7 / 2 ^ 54)⟩ :=
    Arcsine.new_ok.2 ⟨fin_lt_fin.2 (by positivity), rfl⟩
  refine ⟨_, h, C205_arcsine_violated (y := 1 / 2 ^ 51) h (Is.fin _) ?_ (by norm_num)⟩
  have r : B64.rnd (1 + 7 / 2 ^ 54) = 1 + 1 / 2 ^ 51 := by
    have := rnd_eq (x := 1 + 7 / 2 ^ 54) (2 ^ 52 + 2) (-52) (by norm_num) (by norm_num) (by norm_num)
      (by rw [abs_lt, zpow_neg]; norm_num)
    rw [this, zpow_neg]; norm_num
  have nh : ∀ x : ℝ, |x| ≤ 10 → ¬ FP.huge x := fun x hx => not_huge_small hx
  have e : fin 1 + fin (7 / 2 ^ 54) = fin (1 + 1 / 2 ^ 51) := by
    refine ((add_is (Is.fin 1) (Is.fin (7 / 2 ^ 54)) ?_).congr r).eq_fin (by norm_num)
    change ¬ FP.huge (B64.rnd (1 + 7 / 2 ^ 54)); rw [r]; exact nh _ (by norm_num)
  change (fin 1 + fin (7 / 2 ^ 54) - fin 1).Is _
  rw [e]
  have r2 : B64.rnd (1 + 1 / 2 ^ 51 - 1) = 1 / 2 ^ 51 := by
    have := rnd_repr 1 (-51) (by norm_num) (by norm_num)
    rw [zpow_neg] at this; norm_num at this ⊢; exact this
  refine (sub_is (Is.fin _) (Is.fin 1) ?_).congr r2
  change ¬ FP.huge (B64.rnd (1 + 1 / 2 ^ 51 - 1)); rw [r2]; exact nh _ (by norm_num)
end
end Rstat
