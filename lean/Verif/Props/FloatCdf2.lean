import Verif.Props.FloatCdf
import Verif.Props.Normal
import Verif.Props.Dist.LogNormal
import Verif.Props.Dist.FoldedNormal
import Verif.Props.Dist.Levy
import Verif.Props.Dist.Chi
import Verif.Props.Dist.Beta

/-! C203 (violations outside the support) and C204: distribution functions built on the special-function library, in rounded
arithmetic.  `[FP.SpecialFns]` = the library routines are monotone with the right limits (Float/Libm.lean, satisfied by
correctly rounded routines: `B64.specialFns`). `Rep` = "is a floating-point number of the arithmetic". -/
namespace Rstat
open F64 Spec
set_option linter.unusedSectionVars false

theorem pinf_not_le_one : ¬ (pinf : F64) ≤ 1 := by
  intro h; have := pinf_of_pinf_le' h; cases this
where pinf_of_pinf_le' {b : F64} (h : pinf ≤ b) : b = pinf := by
        rcases (le_cases.1 h).2.2 with h | h | ⟨r, s, hr, _⟩
        · cases h
        · exact h
        · rcases hr with h | ⟨h, _⟩ <;> cases h
theorem not_valid_pinf {p : Probability} (h : p.val = pinf) : ¬ p.isValid := fun hv => pinf_not_le_one (h ▸ hv.1)
theorem not_valid_ninf [FP] {p : Probability} (h : p.val = ninf) : ¬ p.isValid := fun hv => nonneg_ne_ninf (h ▸ hv.2) rfl

section
variable [FP] [FP.Lawful] [FP.Libm]

/-- C203 (violation): the Exponential cdf at `-inf` is `-inf`, not a probability -/
theorem C203_exponential_violated {a : F64} {d : Exponential} (h : Exponential.new a = .ok d) (ha : a.isFinite) :
    (d.cdf ninf).val = ninf ∧ ¬ (d.cdf ninf).isValid := by
  obtain ⟨h0, rfl⟩ := Exponential.new_ok.1 h
  obtain ⟨l, rfl, hl⟩ := finite_pos h0 ha
  have hv : (Exponential.cdf ⟨fin l⟩ ninf).val = ninf := by
    change 1 - F64.exp (-(fin l) * ninf) = ninf
    have h2 : -(fin l) * ninf = pinf := by
      rw [neg_fin_ne hl.ne']; change F64.mul _ _ = _
      simp [F64.mul, hl.ne', sinf, hl]
    rw [h2]; exact fin_add_ninf Is.one
  exact ⟨hv, not_valid_ninf hv⟩

/-- C203 (violation): the Pareto cdf below its minimum — at `0.0` — is `-inf`, and at `-inf` it is 1 -/
theorem C203_pareto_violated {a b : F64} {d : Pareto} (h : Pareto.new a b = .ok d) (ha : a.isFinite) (hb : b.isFinite)
    (ha0 : 0 < a) : (d.cdf 0).val = ninf ∧ ¬ (d.cdf 0).isValid ∧ (d.cdf ninf).val.Is 1 := by
  obtain ⟨h1, rfl⟩ := Pareto.new_ok.1 h
  obtain ⟨m, rfl, hm⟩ := finite_pos ha0 ha
  obtain ⟨s, rfl, hs⟩ := finite_pos h1 hb
  have hv : (Pareto.cdf ⟨fin m, fin s⟩ 0).val = ninf := by
    change 1 - (fin m / fin 0).powf (fin s) = ninf
    have h2 : fin m / fin 0 = pinf := by
      change F64.div _ _ = _
      simp [F64.div, hm.ne', sinf, hm.le]
    rw [h2, powf_pinf_pos (Is.fin s) hs]; exact fin_add_ninf Is.one
  refine ⟨hv, not_valid_ninf hv, ?_⟩
  change (1 - (fin m / ninf).powf (fin s)).Is 1
  have h2 : (fin m / ninf).Is 0 := by
    have : fin m / ninf = szero (¬ ((fin m).isNeg ↔ ninf.isNeg)) := by
      change F64.div _ _ = _
      simp [F64.div]
    rw [this]; exact szero_is _
  exact one_sub_zero (powf_zero_pos h2 (Is.fin s) hs)

/-- C203 (violation): the Kumaraswamy cdf at `+inf` is an infinity -/
theorem C203_kumaraswamy_violated {a b : F64} {d : Kumaraswamy} (h : Kumaraswamy.new a b = .ok d) (ha : a.isFinite)
    (hb : b.isFinite) : ¬ (d.cdf pinf).isValid := by
  obtain ⟨h0, h1, rfl⟩ := Kumaraswamy.new_ok.1 h
  obtain ⟨p, rfl, hp⟩ := finite_pos h0 ha
  obtain ⟨q, rfl, hq⟩ := finite_pos h1 hb
  have e : (Kumaraswamy.cdf ⟨fin p, fin q⟩ pinf).val = 1 - (ninf : F64).powf (fin q) := by
    change 1 - (1 - (pinf : F64).powf (fin p)).powf (fin q) = _
    rw [powf_pinf_pos (Is.fin p) hp]
    have : (1 : F64) - pinf = ninf := fin_add_ninf Is.one
    rw [this]
  have e2 : (ninf : F64).powf (fin q) = sinf (isOdd q) := by simp [F64.powf, hq.ne', hq]
  rw [e2] at e
  unfold sinf at e
  split at e
  · exact not_valid_pinf (e.trans (fin_add_pinf Is.one))
  · exact not_valid_ninf (e.trans (fin_add_ninf Is.one))
end

section
variable [FP] [FP.Lawful] [FP.Libm] [FP.SpecialFns]

theorem norm_valid {z : F64} (hz : z ≠ nan) : (0 : F64) ≤ z.norm ∧ z.norm ≤ 1 :=
  ⟨le_trans' ((Is.zero.le_iff FP.SpecialFns.norm_bot).2 le_rfl) (FP.SpecialFns.norm_mono _ _ (bot_le' hz)),
    le_trans' (FP.SpecialFns.norm_mono _ _ (le_top' hz)) ((FP.SpecialFns.norm_top.le_iff Is.one).2 le_rfl)⟩

theorem normal_float_cdf {a b : F64} {r : ℝ} (ha : a.isFinite) (hb : b.Rep r) (h0 : 0 < b) :
    FloatCDF (UvNormal.cdf ⟨a, b⟩) ninf pinf := by
  have hr := pos_of_lt h0 hb.1
  obtain ⟨s, hs, hs0, _⟩ := hb.sqrt hr
  refine FloatCDF.of ninf_le_pinf (fun x y _ hxy _ => ?_) Is.zero Is.one
  have zn : ∀ {x : F64}, x ≠ nan → UvNormal.z ⟨a, b⟩ x ≠ nan := fun hx => by
    unfold UvNormal.z
    change (_ - a) / b.sqrt ≠ nan
    rw [hs]; exact ne_nan_left (z_mono ha hs0 (le_rfl' hx))
  have key : ∀ {x : F64}, x ≠ nan → (0 : F64) ≤ (UvNormal.cdf ⟨a, b⟩ x).val ∧ (UvNormal.cdf ⟨a, b⟩ x).val ≤ 1 := fun {x} hx => by
    cases x with
    | nan => exact absurd rfl hx
    | pinf => exact ⟨zero_le_one', le_rfl' Is.one.ne_nan⟩
    | ninf => exact ⟨le_rfl' Is.zero.ne_nan, zero_le_one'⟩
    | negZero => exact norm_valid (zn hx)
    | fin t => exact norm_valid (zn hx)
  obtain ⟨hx, hy, hc⟩ := le_cases.1 hxy
  rcases hc with rfl | rfl | ⟨t, u, ht, hu, htu⟩
  · exact (key hy).1
  · exact (key hx).2
  · have e : ∀ {x : F64} {t : ℝ}, x.Is t → (UvNormal.cdf ⟨a, b⟩ x).val = ((x - a) / fin s).norm := by
      rintro x t (rfl | ⟨rfl, _⟩) <;>
      · change (((_ : F64) - a) / b.sqrt).norm = _
        rw [hs]
    rw [e ht, e hu]
    exact FP.SpecialFns.norm_mono _ _ (z_mono ha hs0 hxy)

/-- C204: Normal, for every finite mean and every floating-point variance accepted by `new` -/
theorem C204_normal {a b : F64} {r : ℝ} {d : UvNormal} (h : UvNormal.new a b = .ok d) (ha : a.isFinite) (hb : b.Rep r) :
    FloatCDF d.cdf ninf pinf := by
  obtain ⟨h0, rfl⟩ := UvNormal.new_ok.1 h
  exact normal_float_cdf ha hb h0

/-- C204: LogNormal on `[0, +inf]` -/
theorem C204_lognormal {a b : F64} {r : ℝ} {d : LogNormal} (h : LogNormal.new a b = .ok d) (ha : a.isFinite)
    (hb : b.Rep r) : FloatCDF d.cdf 0 pinf := by
  obtain ⟨h0, rfl⟩ := LogNormal.new_ok.1 h
  have hF := normal_float_cdf ha hb h0
  refine FloatCDF.of (le_top' Is.zero.ne_nan) (fun x y hx hxy _ => ?_) ?_ ?_
  · have hl := ln_mono hx hxy
    exact hF.mono _ _ (bot_le' (ne_nan_left hl)) hl (le_top' (ne_nan_right hl))
  · have : (0 : F64).ln = ninf := by
      change (fin 0).ln = _; simp [F64.ln, F64.logWith]
    change ((UvNormal.cdf ⟨a, b⟩ (F64.ln 0)).val).Is 0
    rw [this]; exact hF.left
  · exact hF.right

theorem erf_range {z : F64} (hz : z ≠ nan) : ∃ t, (z.erf).Is t ∧ -1 ≤ t ∧ t ≤ 1 := by
  have hb : (F64.erf ninf).Is (-1) := FP.SpecialFns.erf_odd pinf 1 FP.SpecialFns.erf_top
  have ht : (F64.erf pinf).Is 1 := FP.SpecialFns.erf_top
  obtain ⟨h1, h2, h3⟩ := is_of_le_le hb ht (FP.SpecialFns.erf_mono _ _ (bot_le' hz)) (FP.SpecialFns.erf_mono _ _ (le_top' hz))
  exact ⟨_, h1, h2, h3⟩

/-- C204: FoldedNormal on `[0, +inf]` -/
theorem C204_folded_normal {a b : F64} {d : FoldedNormal} (h : FoldedNormal.new a b = .ok d) (ha : a.isFinite)
    (hb : b.isFinite) : FloatCDF d.cdf 0 pinf := by
  obtain ⟨h0, rfl⟩ := FoldedNormal.new_ok.1 h
  obtain ⟨s, rfl, hs⟩ := finite_pos h0 hb
  have r2 : (2 : F64).Rep 2 := ⟨Is.num 2, by have := rnd_natCast 2 (by norm_num); exact_mod_cast this,
    FP.Lawful.not_huge 2 (by rw [abs_of_pos two_pos]; exact le_self_pow₀ (by norm_num) (by norm_num))⟩
  obtain ⟨c, hc, hc0, _⟩ := r2.sqrt two_pos
  have hval : ∀ x, (FoldedNormal.cdf ⟨a, fin s⟩ x).val =
      fin (1 / 2) * (((x + a) / fin s / fin c).erf + ((x - a) / fin s / fin c).erf) := fun x => by
    unfold FoldedNormal.cdf; rw [hc]; rfl
  refine FloatCDF.of (le_top' Is.zero.ne_nan) (fun x y hx hxy _ => ?_) ?_ ?_
  · rw [hval, hval]
    have m1 := div_const_mono hc0 (div_const_mono hs (add_const_mono ha.is hxy))
    have m2 := div_const_mono hc0 (z_mono ha hs hxy)
    obtain ⟨t1, ht1, _⟩ := erf_range (ne_nan_left m1)
    obtain ⟨u1, hu1, _⟩ := erf_range (ne_nan_right m1)
    obtain ⟨t2, ht2, _⟩ := erf_range (ne_nan_left m2)
    obtain ⟨u2, hu2, _⟩ := erf_range (ne_nan_right m2)
    have e1 := (ht1.le_iff hu1).1 (FP.SpecialFns.erf_mono _ _ m1)
    have e2 := (ht2.le_iff hu2).1 (FP.SpecialFns.erf_mono _ _ m2)
    exact const_mul_mono (by norm_num) (add_mono ht1 ht2 hu1 hu2 (by linarith))
  · rw [hval]
    -- the two arguments are opposite
    have hne : (0 : F64) + a ≠ nan := const_add_ne_nan ha.is.ne_nan Is.zero
    have x1 : ((0 : F64) - a).ext = (-((0 : F64) + a)).ext := by
      have h1 := add_ext Is.zero ha.is
      have h2 := add_ext Is.zero ha.is.neg
      change ((0 : F64) + -a).ext = _
      rw [h2, neg_ext hne h1, ← round_neg_ext]; congr 2; ring
    have hne' : -((0 : F64) + a) ≠ nan := ne_nan_left (neg_anti (le_rfl' hne))
    have x2 : (((0 : F64) - a) / fin s).ext = (-(((0 : F64) + a) / fin s)).ext :=
      (div_const_ext hs (ne_nan_of_ext x1 hne') x1).trans (neg_div_const_ext hs hne)
    have hn2 : ((0 : F64) + a) / fin s ≠ nan := div_const_ne_nan hs hne
    have hn2' : -(((0 : F64) + a) / fin s) ≠ nan := ne_nan_left (neg_anti (le_rfl' hn2))
    have x3 : (((0 : F64) - a) / fin s / fin c).ext = (-(((0 : F64) + a) / fin s / fin c)).ext :=
      (div_const_ext hc0 (ne_nan_of_ext x2 hn2') x2).trans (neg_div_const_ext hc0 hn2)
    have hn3 : ((0 : F64) + a) / fin s / fin c ≠ nan := div_const_ne_nan hc0 hn2
    have hn3' : -(((0 : F64) + a) / fin s / fin c) ≠ nan := ne_nan_left (neg_anti (le_rfl' hn3))
    obtain ⟨t, ht, _⟩ := erf_range hn3
    have ht' := FP.SpecialFns.erf_odd _ t ht
    have l := ext_le (ne_nan_of_ext x3 hn3') x3
    have ht2 : ((((0 : F64) - a) / fin s / fin c).erf).Is (-t) :=
      ht'.of_ext (ext_eq_of_le_le (FP.SpecialFns.erf_mono _ _ l.2) (FP.SpecialFns.erf_mono _ _ l.1))
    have h3 := add_ext ht ht2
    rw [add_neg_cancel, round_zero_is.ext_eq] at h3
    have h4 := Is.of_ext (Is.fin 0) (b := _ + _) h3.symm
    have h5 := mul_fin_ext (Is.fin (1 / 2)) h4
    rw [mul_zero] at h5
    exact round_zero_is.of_ext h5.symm
  · rw [hval]
    have e1 : (pinf + a) / fin s / fin c = pinf := by rw [pinf_add ha.is, pinf_div_const hs, pinf_div_const hc0]
    have e2 : (pinf - a) / fin s / fin c = pinf := by rw [z_top ha hs, pinf_div_const hc0]
    rw [e1, e2]
    have h1 : (F64.erf pinf).Is 1 := FP.SpecialFns.erf_top
    have h2 := add_ext h1 h1
    have h3 : (F64.round (1 + 1)).Is 2 := by
      have e : FP.rnd ((1:ℝ) + 1) = 2 := by rw [show (1:ℝ) + 1 = 2 by norm_num]; exact r2.2.1
      have := round_is (r := (1:ℝ) + 1) (by rw [e]; exact r2.2.2)
      rwa [e] at this
    have h4 := h3.of_ext h2.symm
    have h5 := mul_fin_ext (Is.fin (1 / 2)) h4
    exact Is.of_ext (by rw [show (1:ℝ) / 2 * 2 = 1 by norm_num]; exact round_one_is) h5.symm

/-- C204: Beta on `[0, 1]` -/
theorem C204_beta {a b : F64} {d : BetaDist} (h : BetaDist.new a b = .ok d) (ha : a.isFinite) (hb : b.isFinite) :
    FloatCDF d.cdf 0 1 := by
  obtain ⟨h0, h1, rfl⟩ := BetaDist.new_ok.1 h
  obtain ⟨p, rfl, hp⟩ := finite_pos h0 ha
  obtain ⟨q, rfl, hq⟩ := finite_pos h1 hb
  exact FloatCDF.of zero_le_one'
    (fun x y hx hxy hy => FP.SpecialFns.betainc_mono _ _ _ _ p q (Is.fin p) (Is.fin q) hp hq hx hxy hy)
    (FP.SpecialFns.betainc_zero _ _ _ p q (Is.fin p) (Is.fin q) hp hq Is.zero)
    (FP.SpecialFns.betainc_one _ _ _ p q (Is.fin p) (Is.fin q) hp hq Is.one)

/-- C204: Chi on `[0, +inf]`, for every number of degrees of freedom a `usize` can hold -/
theorem C204_chi {k : ℕ} {d : Chi} (h : Chi.new k = .ok d) (hk : k < 2 ^ 64) : FloatCDF d.cdf 0 pinf := by
  obtain ⟨h0, rfl⟩ := Chi.new_ok.1 h
  have hk1 : (1:ℝ) ≤ k := by exact_mod_cast h0
  have hn : ∀ x : ℝ, |x| ≤ 2 ^ 64 → |FP.rnd x| ≤ 2 ^ 65 := fun x hx => by
    have h1 := FP.Lawful.rnd_err x
    have h2 : |FP.rnd x| ≤ |x| + |FP.rnd x - x| := by
      have := abs_add_le x (FP.rnd x - x); rwa [add_sub_cancel] at this
    have h3 : |x| / 2 ^ 53 ≤ 2 ^ 64 / 2 ^ 53 := by gcongr
    have h4 : (1:ℝ) / 2 ^ 1075 ≤ 1 := by rw [div_le_one (by positivity)]; exact one_le_pow₀ (by norm_num)
    have h5 : (2:ℝ) ^ 64 / 2 ^ 53 + 1 + 2 ^ 64 ≤ 2 ^ 65 := by norm_num
    linarith
  have nh : ∀ x : ℝ, |x| ≤ 2 ^ 64 → ¬ FP.huge (FP.rnd x) := fun x hx =>
    FP.Lawful.not_huge _ ((hn x hx).trans (pow_le_pow_right₀ (by norm_num) (by norm_num)))
  have hk2 : |(k:ℝ)| ≤ 2 ^ 64 := by rw [abs_of_nonneg (by positivity)]; exact_mod_cast hk.le
  have hkf : (F64.ofNat k).Is (FP.rnd k) := round_is (nh _ hk2)
  have hkr : 1 ≤ FP.rnd (k:ℝ) := by have := FP.Lawful.rnd_mono hk1; rwa [rnd_one] at this
  have rep : (F64.ofNat k).Rep (FP.rnd k) := ⟨hkf, FP.Lawful.rnd_idem _, nh _ hk2⟩
  have hko2 := rep.half (by linarith)
  have hpos : 0 < FP.rnd (FP.rnd (k:ℝ) / 2) := by
    have h1 := FP.Lawful.rnd_dyadic 1 1 (by norm_num) (by norm_num)
    have h2 := FP.Lawful.rnd_mono (by linarith : (1:ℝ) / 2 ≤ FP.rnd (k:ℝ) / 2)
    norm_num at h1
    rw [h1] at h2
    linarith
  have nn : ∀ {x y : F64}, 0 ≤ x → x ≤ y → (0 : F64) ≤ x * x / 2 ∧ x * x / 2 ≤ y * y / 2 := fun {x y} hx hxy => by
    have h1 := mul_self_mono hx hxy
    have h2 : (0 : F64) / 2 ≤ x * x / 2 := div_const_mono two_pos h1.1
    have h3 : ((0 : F64) / 2).Is 0 := by rw [div_finite Is.zero (Is.num 2) two_ne_zero, if_pos rfl]; exact szero_is _
    exact ⟨le_trans' ((Is.zero.le_iff h3).2 le_rfl) h2, div_const_mono two_pos h1.2⟩
  refine FloatCDF.of (le_top' Is.zero.ne_nan) (fun x y hx hxy _ => ?_) ?_ ?_
  · exact FP.SpecialFns.gammainc_mono _ _ _ _ hko2 hpos (nn hx hxy).1 (nn hx hxy).2
  · have z : ((0 : F64) * 0).Is 0 := by rw [mul_finite Is.zero Is.zero, if_pos (by simp)]; exact szero_is _
    exact FP.SpecialFns.gammainc_zero _ _ _ hko2 hpos
      (by rw [div_finite z (Is.num 2) two_ne_zero, if_pos rfl]; exact szero_is _)
  · change (F64.gammainc _ (pinf * pinf / 2)).Is 1
    have e : (pinf : F64) * pinf = pinf := by change F64.mul pinf pinf = pinf; simp [F64.mul, sinf]
    rw [e, show (pinf : F64) / 2 = pinf from pinf_div_const two_pos]
    exact FP.SpecialFns.gammainc_top _ _ hko2 hpos

/-- C204: Lévy at every `x ≥ mu` with `x - mu` not `-0.0`, unless half the scale underflows -/
theorem C204_levy_partial {a b : F64} {c : ℝ} {d : Levy} (h : Levy.new a b = .ok d) (ha : a.isFinite) (hb : b.Rep c)
    (hc : 1 / 2 ^ 999 ≤ c) :
    (∀ x y : F64, a ≤ x → x - a ≠ negZero → x ≤ y → y - a ≠ negZero → (d.cdf x).val ≤ (d.cdf y).val) ∧
    (∀ x : F64, a ≤ x → x - a ≠ negZero → (d.cdf x).isValid) ∧ (d.cdf pinf).val.Is 1 := by
  obtain ⟨h0, rfl⟩ := Levy.new_ok.1 h
  have hc0 := pos_of_lt h0 hb.1
  have hh := hb.half hc0.le
  have hk : 0 < FP.rnd (c / 2) := by
    have h1 := FP.Lawful.rnd_dyadic 1 1000 (by norm_num) (by norm_num)
    have e : (1:ℝ) / 2 ^ 1000 = 1 / 2 ^ 999 / 2 := by rw [pow_succ (2:ℝ) 999, div_div]
    have h2 := FP.Lawful.rnd_mono (show ((1:ℤ):ℝ) / 2 ^ 1000 ≤ c / 2 by rw [Int.cast_one, e]; linarith)
    rw [h1] at h2
    refine lt_of_lt_of_le ?_ h2
    rw [Int.cast_one]; positivity
  have e2 : b / 2 = fin (FP.rnd (c / 2)) := hh.eq_fin hk.ne'
  have hval : ∀ x, (Levy.cdf ⟨a, b⟩ x).val = (fin (FP.rnd (c / 2)) / (x - a)).erfc := fun x => by
    rw [← e2]; rfl
  have hd : ∀ {x : F64}, a ≤ x → x - a ≠ negZero → 0 < x - a ∨ x - a = fin 0 := fun {x} hx hn => by
    have h1 := sub_const_mono ha.is hx
    have h2 : (a - a).Is 0 := by
      have := add_ext ha.is ha.is.neg
      rw [add_neg_cancel] at this
      exact round_zero_is.of_ext this.symm
    have h3 : (0 : F64) ≤ x - a := le_trans' ((Is.zero.le_iff h2).2 le_rfl) h1
    rcases nonneg_cases h3 with h | ⟨r, hr, h0⟩
    · rw [h]; exact Or.inl ⟨0, ⊤, rfl, rfl, EReal.zero_lt_top⟩
    · rcases h0.eq_or_lt with rfl | h0
      · rcases hr with h | ⟨h, _⟩
        · exact Or.inr h
        · exact absurd h hn
      · exact Or.inl ((Is.zero.lt_iff hr).2 h0)
  have zc : ∀ {z : F64}, 0 ≤ z → (0 : F64) ≤ z.erfc ∧ z.erfc ≤ 1 := fun {z} hz =>
    ⟨le_trans' ((Is.zero.le_iff FP.SpecialFns.erfc_top).2 le_rfl) (FP.SpecialFns.erfc_anti _ _ (le_top' (ne_nan_right hz))),
      le_trans' (FP.SpecialFns.erfc_anti _ _ hz) (((FP.SpecialFns.erfc_zero _ Is.zero).le_iff Is.one).2 le_rfl)⟩
  refine ⟨fun x y hx hxn hxy hyn => ?_, fun x hx hxn => ?_, ?_⟩
  · rw [hval, hval]
    exact FP.SpecialFns.erfc_anti _ _ (const_div_anti0 hk (hd hx hxn) (hd (le_trans' hx hxy) hyn) (sub_const_mono ha.is hxy))
  · unfold Probability.isValid
    rw [hval]
    have := zc (const_div_nonneg0 hk (hd hx hxn))
    exact ⟨this.2, this.1⟩
  · rw [hval]
    have : pinf - a = pinf := pinf_add ha.is.neg
    rw [this]
    exact FP.SpecialFns.erfc_zero _ (const_div_pinf (Is.fin _))

end

/-- C204 (violation): with location `+0.0` the Lévy cdf at `-0.0` evaluates the complementary error function at `-inf`, which
is 2 -/
theorem C204_levy_violated [FP] {b : F64} {k : ℝ} {d : Levy} (h : Levy.new 0 b = .ok d) (hb : (b / 2).Is k) (hk : 0 < k) :
    (d.cdf negZero).val = F64.erfc ninf ∧ ((F64.erfc ninf).Is 2 → ¬ (d.cdf negZero).isValid) := by
  obtain ⟨h0, rfl⟩ := Levy.new_ok.1 h
  have hv : (Levy.cdf ⟨0, b⟩ negZero).val = F64.erfc ninf := by
    change F64.erfc (b / 2 / (negZero - fin 0)) = _
    have e1 : negZero - fin 0 = negZero := by
      change F64.add negZero (F64.neg (fin 0)) = _
      simp [F64.neg, F64.add]
    have e2 : b / 2 = fin k := hb.eq_fin hk.ne'
    rw [e1, e2]
    have : fin k / negZero = ninf := by
      change F64.div _ _ = _
      simp [F64.div, hk.ne', sinf, hk.le]
    rw [this]
  refine ⟨hv, fun h2 hval => ?_⟩
  have := hval.1
  rw [hv, h2.le_iff Is.one] at this
  norm_num at this

/-! non-vacuity in binary64 -/
section
attribute [local instance] binary64 binary64_lawful B64.libm B64.specialFns
theorem rep_nat (n : ℕ) (hn : n ≤ 2 ^ 53) : (fin (n:ℝ)).Rep n :=
  ⟨Is.fin _, rnd_natCast n hn, FP.Lawful.not_huge _ (by
    rw [abs_of_nonneg (by positivity)]
    have h1 : (n:ℝ) ≤ 2 ^ 53 := by exact_mod_cast hn
    exact h1.trans (pow_le_pow_right₀ (by norm_num) (by norm_num)))⟩
example : ∃ d, UvNormal.new (fin (-3)) (fin (5:ℕ)) = .ok d ∧ FloatCDF d.cdf ninf pinf :=
  have h : UvNormal.new (fin (-3)) (fin (5:ℕ)) = .ok ⟨fin (-3), fin (5:ℕ)⟩ :=
    UvNormal.new_ok.2 ⟨fin_lt_fin.2 (by norm_num), rfl⟩
  ⟨_, h, C204_normal h trivial (rep_nat 5 (by norm_num))⟩
example : ∃ d, LogNormal.new (fin (-3)) (fin (5:ℕ)) = .ok d ∧ FloatCDF d.cdf 0 pinf :=
  have h : LogNormal.new (fin (-3)) (fin (5:ℕ)) = .ok ⟨⟨fin (-3), fin (5:ℕ)⟩⟩ :=
    LogNormal.new_ok.2 ⟨fin_lt_fin.2 (by norm_num), rfl⟩
  ⟨_, h, C204_lognormal h trivial (rep_nat 5 (by norm_num))⟩
example : ∃ d, FoldedNormal.new (fin 2) (fin 3) = .ok d ∧ FloatCDF d.cdf 0 pinf :=
  have h : FoldedNormal.new (fin 2) (fin 3) = .ok ⟨fin 2, fin 3⟩ := FoldedNormal.new_ok.2 ⟨fin_lt_fin.2 (by norm_num), rfl⟩
  ⟨_, h, C204_folded_normal h trivial trivial⟩
example : ∃ d, BetaDist.new (fin 2) (fin 3) = .ok d ∧ FloatCDF d.cdf 0 1 :=
  have h : BetaDist.new (fin 2) (fin 3) = .ok ⟨fin 2, fin 3⟩ :=
    BetaDist.new_ok.2 ⟨fin_lt_fin.2 (by norm_num), fin_lt_fin.2 (by norm_num), rfl⟩
  ⟨_, h, C204_beta h trivial trivial⟩
example : ∃ d, Chi.new 7 = .ok d ∧ FloatCDF d.cdf 0 pinf :=
  ⟨_, chi_ex 7 (by norm_num), C204_chi (chi_ex 7 (by norm_num)) (by norm_num)⟩
example : ∃ d, Levy.new 0 (fin (4:ℕ)) = .ok d ∧ (d.cdf pinf).val.Is 1 ∧ ¬ (d.cdf negZero).isValid := by
  have h : Levy.new 0 (fin (4:ℕ)) = .ok ⟨0, fin (4:ℕ)⟩ := Levy.new_ok.2 ⟨fin_lt_fin.2 (by norm_num), rfl⟩
  have r4 := rep_nat 4 (by norm_num)
  have hh := r4.half (by norm_num)
  have e : FP.rnd (((4:ℕ):ℝ) / 2) = 2 := by
    have := rnd_natCast 2 (by norm_num)
    rw [show ((4:ℕ):ℝ) / 2 = ((2:ℕ):ℝ) by norm_num, this]; norm_num
  rw [e] at hh
  refine ⟨_, h, (C204_levy_partial h trivial r4 ?_).2.2, (C204_levy_violated h hh two_pos).2 (Is.fin 2)⟩
  have : (1:ℝ) / 2 ^ 999 ≤ 1 := by rw [div_le_one (by positivity)]; exact one_le_pow₀ (by norm_num)
  push_cast; linarith
end
end Rstat
