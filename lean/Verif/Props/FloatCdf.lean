import Verif.Spec.FloatCDF
import Verif.Lemmas.FloatMono
import Verif.Lemmas.Binary64
import Verif.Props.Dist.Logistic
import Verif.Props.Dist.Gumbel
import Verif.Props.Dist.Weibull
import Verif.Props.Dist.Frechet
import Verif.Props.Dist.Pareto
import Verif.Props.Dist.Kumaraswamy
import Verif.Props.Dist.Exponential

/-! C202, C203: distribution functions in rounded arithmetic.  `[FP.Lawful]` = correctly rounded `+ - * /`, `[FP.Libm]` =
monotone elementary functions (Float/Libm.lean); `binary64` satisfies both.  Parameters range over every finite f64 accepted
by the constructor, the argument over every f64 of the support including infinities and signed zeros. -/
namespace Rstat
open F64 Spec

/-- monotone with the right end values is enough -/
theorem Spec.FloatCDF.of [FP] {F : F64 → Probability} {lo hi : F64} (hlh : lo ≤ hi)
    (mono : ∀ x y : F64, lo ≤ x → x ≤ y → y ≤ hi → (F x).val ≤ (F y).val)
    (left : (F lo).val.Is 0) (right : (F hi).val.Is 1) : FloatCDF F lo hi := by
  refine ⟨mono, fun x h1 h2 => ⟨?_, ?_⟩, left, right⟩
  · exact le_trans' ((Is.zero.le_iff left).2 le_rfl) (mono lo x (le_rfl' (ne_nan_left h1)) h1 h2)
  · exact le_trans' (mono x hi h1 h2 (le_rfl' (ne_nan_right h2))) ((right.le_iff Is.one).2 le_rfl)

set_option linter.unusedSectionVars false
section
variable [FP] [FP.Lawful] [FP.Libm]

theorem finite_pos {b : F64} (h : 0 < b) (hb : b.isFinite) : ∃ s, b = fin s ∧ 0 < s := by
  rcases pos_cases h with rfl | h
  · exact absurd hb (by simp)
  · exact h

theorem zero_le_one' : (0 : F64) ≤ 1 := (Is.zero.le_iff Is.one).2 zero_le_one
theorem zero_ne_nan' : (0 : F64) ≠ nan := Is.zero.ne_nan
theorem ninf_le_pinf : ninf ≤ pinf := bot_le' (by simp)

/-- `(x - m) / s` -/
theorem z_mono {m x y : F64} {s : ℝ} (hm : m.isFinite) (hs : 0 < s) (h : x ≤ y) : (x - m) / fin s ≤ (y - m) / fin s :=
  div_const_mono hs (sub_const_mono hm.is h)
theorem z_bot {m : F64} {s : ℝ} (hm : m.isFinite) (hs : 0 < s) : (ninf - m) / fin s = ninf := by
  rw [show ninf - m = ninf from ninf_add hm.is.neg, ninf_div_const hs]
theorem z_top {m : F64} {s : ℝ} (hm : m.isFinite) (hs : 0 < s) : (pinf - m) / fin s = pinf := by
  rw [show pinf - m = pinf from pinf_add hm.is.neg, pinf_div_const hs]

theorem one_le_one_add {e : F64} (he : 0 ≤ e) : (1 : F64) ≤ 1 + e :=
  le_add_self_of ⟨Is.one, rnd_one, not_huge_one⟩ he
theorem one_add_zero {e : F64} (he : e.Is 0) : (1 + e).Is 1 := by
  have h := add_ext Is.one he
  rw [add_zero, round_one, ext_fin] at h
  rcases add_eq_round Is.one he with h' | ⟨h', _⟩
  · rw [h', add_zero]; exact round_one_is
  · cases h'
theorem one_sub_zero {e : F64} (he : e.Is 0) : (1 - e).Is 1 := one_add_zero (he.neg.congr neg_zero)
theorem one_sub_one {e : F64} (he : e.Is 1) : (1 - e).Is 0 := by
  rcases add_eq_round Is.one he.neg with h' | ⟨h', _⟩
  · change (1 + -e).Is 0
    rw [h', show (1:ℝ) + -1 = 0 by norm_num]; exact round_zero_is
  · cases h'
theorem one_div_one {e : F64} (he : e.Is 1) : (1 / e).Is 1 := by
  rw [div_finite Is.one he one_ne_zero, if_neg one_ne_zero, div_one]; exact round_one_is

/-- C202: Logistic — for all finite parameters accepted by `new`, the floating-point cdf is a distribution function over the
whole f64 line -/
theorem C202_logistic {a b : F64} {d : Logistic} (h : Logistic.new a b = .ok d) (ha : a.isFinite) (hb : b.isFinite) :
    FloatCDF d.cdf ninf pinf := by
  obtain ⟨h0, rfl⟩ := Logistic.new_ok.1 h
  obtain ⟨s, rfl, hs⟩ := finite_pos h0 hb
  refine FloatCDF.of ninf_le_pinf (fun x y _ hxy _ => ?_) ?_ ?_
  · have h1 := exp_mono (neg_anti (z_mono ha hs hxy))
    have h2 := const_add_mono Is.one h1
    have h3 := one_le_one_add (exp_nonneg (ne_nan_left (neg_anti (z_mono ha hs hxy))))
    exact const_div_anti zero_le_one (lt_of_lt_of_le' ((Is.zero.lt_iff Is.one).2 one_pos) h3) h2
  · change (1 / (1 + F64.exp (-((ninf - a) / fin s)))).Is 0
    rw [z_bot ha hs]
    change (1 / (1 + pinf)).Is 0
    rw [fin_add_pinf Is.one]; exact const_div_pinf Is.one
  · change (1 / (1 + F64.exp (-((pinf - a) / fin s)))).Is 1
    rw [z_top ha hs]
    exact one_div_one (one_add_zero (Is.fin 0))

/-- C202: Gumbel -/
theorem C202_gumbel {a b : F64} {d : Gumbel} (h : Gumbel.new a b = .ok d) (ha : a.isFinite) (hb : b.isFinite) :
    FloatCDF d.cdf ninf pinf := by
  obtain ⟨h0, rfl⟩ := Gumbel.new_ok.1 h
  obtain ⟨s, rfl, hs⟩ := finite_pos h0 hb
  refine FloatCDF.of ninf_le_pinf (fun x y _ hxy _ => ?_) ?_ ?_
  · exact exp_mono (neg_anti (exp_mono (neg_anti (z_mono ha hs hxy))))
  · change (F64.exp (-(F64.exp (-((ninf - a) / fin s))))).Is 0
    rw [z_bot ha hs]; exact Is.fin 0
  · change (F64.exp (-(F64.exp (-((pinf - a) / fin s))))).Is 1
    rw [z_top ha hs]
    change (F64.exp (-(fin 0))).Is 1
    rw [exp_zero ((Is.fin 0).neg.congr neg_zero)]; exact Is.fin 1

/-- `1 - exp(-t)` for `0 ≤ t ≤ u` -/
theorem one_sub_exp_neg_mono {t u : F64} (h : t ≤ u) : 1 - F64.exp (-t) ≤ 1 - F64.exp (-u) :=
  const_sub_anti Is.one (exp_mono (neg_anti h))
theorem one_sub_exp_neg_nonneg {t : F64} (h : 0 ≤ t) : (0 : F64) ≤ 1 - F64.exp (-t) := by
  have h1 := one_sub_exp_neg_mono h
  have h2 : (1 - F64.exp (-(0 : F64))).Is 0 := by
    rw [exp_zero (Is.zero.neg.congr neg_zero)]; exact one_sub_one (Is.fin 1)
  exact le_trans' ((Is.zero.le_iff h2).2 le_rfl) h1

/-- C202: Weibull, on the whole line (the code returns 0 below the origin) -/
theorem C202_weibull {a b : F64} {d : Weibull} (h : Weibull.new a b = .ok d) (ha : a.isFinite) (hb : b.isFinite) :
    FloatCDF d.cdf ninf pinf := by
  obtain ⟨h0, h1, rfl⟩ := Weibull.new_ok.1 h
  obtain ⟨l, rfl, hl⟩ := finite_pos h0 ha
  obtain ⟨k, rfl, hk⟩ := finite_pos h1 hb
  have z0 : ((0 : F64) / fin l).Is 0 := by
    rw [div_finite Is.zero (Is.fin l) hl.ne', if_pos rfl]; exact szero_is _
  have hz : ∀ {x : F64}, 0 ≤ x → 0 ≤ x / fin l := fun hx =>
    le_trans' ((Is.zero.le_iff z0).2 le_rfl) (div_const_mono hl hx)
  refine FloatCDF.of ninf_le_pinf (fun x y _ hxy _ => ?_) ?_ ?_
  · unfold Weibull.cdf
    split
    · rename_i hx
      rw [if_pos (le_trans' hx hxy)]
      exact one_sub_exp_neg_mono (powf_mono (Is.fin k) hk (hz hx) (div_const_mono hl hxy)).2
    · split
      · rename_i hy
        exact one_sub_exp_neg_nonneg (powf_mono (Is.fin k) hk (hz hy) (le_rfl' (ne_nan_right (hz hy)))).1
      · exact le_rfl' zero_ne_nan'
  · unfold Weibull.cdf
    rw [if_neg (fun h => nonneg_ne_ninf h rfl)]; exact Is.zero
  · unfold Weibull.cdf
    rw [if_pos (le_top' zero_ne_nan')]
    change (1 - F64.exp (-((pinf / fin l).powf (fin k)))).Is 1
    rw [pinf_div_const hl, powf_pinf_pos (Is.fin k) hk]
    exact one_sub_zero (Is.fin 0)

/-- C203: Exponential on `[0, +inf]` -/
theorem C203_exponential_partial {a : F64} {d : Exponential} (h : Exponential.new a = .ok d) (ha : a.isFinite) :
    FloatCDF d.cdf 0 pinf := by
  obtain ⟨h0, rfl⟩ := Exponential.new_ok.1 h
  obtain ⟨l, rfl, hl⟩ := finite_pos h0 ha
  have hn : -(fin l) = fin (-l) := by
    change F64.neg _ = _
    simp [F64.neg, hl.ne']
  have key : ∀ {x : F64}, x ≠ nan → (-(fin l) * x).ext = (-(fin l * x)).ext := fun {x} hx => by
    rw [hn]
    cases x with
    | nan => exact absurd rfl hx
    | pinf =>
      rw [const_mul_pinf hl]
      change (F64.mul _ _).ext = _
      simp [F64.mul, hl.ne', sinf, hl]; rfl
    | ninf =>
      rw [const_mul_ninf hl]
      change (F64.mul _ _).ext = _
      simp [F64.mul, hl.ne', sinf, hl]; rfl
    | negZero =>
      have h1 : (fin l * negZero).Is 0 := by rw [mul_finite (Is.fin l) Is.negZero, if_pos (by simp)]; exact szero_is _
      have h2 : (fin (-l) * negZero).Is 0 := by rw [mul_finite (Is.fin _) Is.negZero, if_pos (by simp)]; exact szero_is _
      rw [h2.ext_eq, h1.neg.ext_eq, neg_zero]
    | fin r =>
      rw [mul_fin_ext (Is.fin (-l)) (Is.fin r)]
      by_cases hr : r = 0
      · subst hr
        have h1 : (fin l * fin 0).Is 0 := by rw [mul_finite (Is.fin l) (Is.fin 0), if_pos (by simp)]; exact szero_is _
        rw [h1.neg.ext_eq, mul_zero, neg_zero, round_zero_is.ext_eq]
      · have h2 : fin l * fin r = F64.round (l * r) := by
          rw [mul_finite (Is.fin l) (Is.fin r), if_neg (mul_ne_zero hl.ne' hr)]
        have hlr : l * r ≠ 0 := mul_ne_zero hl.ne' hr
        rw [h2, neg_mul]
        by_cases hh : FP.huge (FP.rnd (l * r))
        · have hh' : FP.huge (FP.rnd (-(l * r))) := by rw [FP.Lawful.rnd_neg, FP.Lawful.huge_neg]; exact hh
          unfold F64.round
          rw [if_pos hh, if_pos hh']
          rcases lt_or_gt_of_ne hlr with h | h
          · rw [if_pos (by linarith), if_neg (by linarith)]; rfl
          · rw [if_neg (by linarith), if_pos h]; rfl
        · have hh' : ¬ FP.huge (FP.rnd (-(l * r))) := by rw [FP.Lawful.rnd_neg, FP.Lawful.huge_neg]; exact hh
          rw [(round_is hh').ext_eq, (round_is hh).neg.ext_eq, FP.Lawful.rnd_neg]
  have m1 : ∀ {x y : F64}, x ≤ y → -(fin l) * y ≤ -(fin l) * x := fun {x y} hxy =>
    le_congr (key (ne_nan_right hxy)).symm (key (ne_nan_left hxy)).symm (neg_anti (const_mul_mono hl hxy))
  refine FloatCDF.of (le_top' zero_ne_nan') (fun x y _ hxy _ => const_sub_anti Is.one (exp_mono (m1 hxy))) ?_ ?_
  · change (1 - F64.exp (-(fin l) * 0)).Is 0
    have h2 : (-(fin l) * 0).Is 0 := by
      rw [hn, mul_finite (Is.fin _) Is.zero, if_pos (by simp)]; exact szero_is _
    rw [exp_zero h2]; exact one_sub_one (Is.fin 1)
  · change (1 - F64.exp (-(fin l) * pinf)).Is 1
    have h2 : -(fin l) * pinf = ninf := by
      rw [hn]; change F64.mul _ _ = _
      simp [F64.mul, hl.ne', sinf, hl]
    rw [h2]; exact one_sub_zero (Is.fin 0)

/-- C203: Pareto on `[xm, +inf]`, for a positive minimum -/
theorem C203_pareto_partial {a b : F64} {d : Pareto} (h : Pareto.new a b = .ok d) (ha : a.isFinite) (hb : b.isFinite)
    (ha0 : 0 < a) : FloatCDF d.cdf a pinf := by
  obtain ⟨h1, rfl⟩ := Pareto.new_ok.1 h
  obtain ⟨m, rfl, hm⟩ := finite_pos ha0 ha
  obtain ⟨s, rfl, hs⟩ := finite_pos h1 hb
  have hnn : ∀ {x : F64}, 0 < x → (0 : F64) ≤ fin m / x := fun {x} hx => by
    have h1 := const_div_anti hm.le hx (le_top' (ne_nan_right (le_of_lt' hx)))
    exact le_trans' ((Is.zero.le_iff (const_div_pinf (Is.fin m))).2 le_rfl) h1
  refine FloatCDF.of (le_top' (by simp)) (fun x y hx hxy _ => ?_) ?_ ?_
  · have hx0 : (0 : F64) < x := lt_of_lt_of_le' ha0 hx
    exact const_sub_anti Is.one
      (powf_mono (Is.fin s) hs (hnn (lt_of_lt_of_le' hx0 hxy)) (const_div_anti hm.le hx0 hxy)).2
  · change (1 - (fin m / fin m).powf (fin s)).Is 0
    have : fin m / fin m = 1 := by
      rw [div_finite (Is.fin m) (Is.fin m) hm.ne', if_neg hm.ne', div_self hm.ne', round_one]; rfl
    rw [this, powf_one]; exact one_sub_one Is.one
  · change (1 - (fin m / pinf).powf (fin s)).Is 1
    exact one_sub_zero (powf_zero_pos (const_div_pinf (Is.fin m)) (Is.fin s) hs)

/-- C203: Kumaraswamy on `[0, 1]` -/
theorem C203_kumaraswamy_partial {a b : F64} {d : Kumaraswamy} (h : Kumaraswamy.new a b = .ok d) (ha : a.isFinite)
    (hb : b.isFinite) : FloatCDF d.cdf 0 1 := by
  obtain ⟨h0, h1, rfl⟩ := Kumaraswamy.new_ok.1 h
  obtain ⟨p, rfl, hp⟩ := finite_pos h0 ha
  obtain ⟨q, rfl, hq⟩ := finite_pos h1 hb
  have h01 : ∀ {x : F64}, 0 ≤ x → x ≤ 1 → (0 : F64) ≤ 1 - x.powf (fin p) := fun {x} hx hx1 => by
    have h2 := const_sub_anti Is.one (powf_le_one (Is.fin p) hp hx hx1)
    exact le_trans' ((Is.zero.le_iff (one_sub_one Is.one)).2 le_rfl) h2
  refine FloatCDF.of zero_le_one' (fun x y hx hxy hy => ?_) ?_ ?_
  · exact const_sub_anti Is.one (powf_mono (Is.fin q) hq (h01 (le_trans' hx hxy) hy)
      (const_sub_anti Is.one (powf_mono (Is.fin p) hp hx hxy).2)).2
  · change (1 - (1 - (0 : F64).powf (fin p)).powf (fin q)).Is 0
    have h2 : (1 - (0 : F64).powf (fin p)).Is 1 := one_sub_zero (powf_zero_pos Is.zero (Is.fin p) hp)
    have h3 : 1 - (0 : F64).powf (fin p) = 1 := h2.eq_fin one_ne_zero
    rw [h3, powf_one]; exact one_sub_one Is.one
  · change (1 - (1 - (1 : F64).powf (fin p)).powf (fin q)).Is 1
    rw [powf_one]
    exact one_sub_zero (powf_zero_pos (one_sub_one Is.one) (Is.fin q) hq)

omit [FP] [FP.Lawful] [FP.Libm] in
theorem neg_fin_ne {r : ℝ} (hr : r ≠ 0) : -(fin r) = fin (-r) := by
  change F64.neg _ = _
  simp [F64.neg, hr]

/-- C203: Fréchet on `[+0.0, +inf]` — every f64 of the support except `-0.0` -/
theorem C203_frechet_partial {a : F64} {d : Frechet} (h : Frechet.new a = .ok d) (ha : a.isFinite) :
    (∀ x y : F64, 0 ≤ x → x ≠ negZero → x ≤ y → y ≠ negZero → (d.cdf x).val ≤ (d.cdf y).val) ∧
    (∀ x : F64, 0 ≤ x → x ≠ negZero → (d.cdf x).isValid) ∧ (d.cdf 0).val.Is 0 ∧ (d.cdf pinf).val.Is 1 := by
  obtain ⟨h0, rfl⟩ := Frechet.new_ok.1 h
  obtain ⟨s, rfl, hs⟩ := finite_pos h0 ha
  have hc : ∀ {x : F64}, 0 ≤ x → x ≠ negZero → 0 < x ∨ x = fin 0 := fun {x} hx hn => by
    rcases nonneg_cases hx with rfl | ⟨r, hr, h0⟩
    · exact Or.inl ⟨0, ⊤, rfl, rfl, EReal.zero_lt_top⟩
    · rcases h0.eq_or_lt with rfl | h0
      · rcases hr with rfl | ⟨rfl, _⟩
        · exact Or.inr rfl
        · exact absurd rfl hn
      · exact Or.inl ((Is.zero.lt_iff hr).2 h0)
  have hne : -(fin s) = fin (-s) := neg_fin_ne hs.ne'
  have he : (-(fin s)).Is (-s) := (Is.fin s).neg
  have mono : ∀ x y : F64, 0 ≤ x → x ≠ negZero → x ≤ y → y ≠ negZero →
      ((⟨fin s⟩ : Frechet).cdf x).val ≤ ((⟨fin s⟩ : Frechet).cdf y).val := fun x y hx hxn hxy hyn =>
    exp_mono (neg_anti (powf_anti he (by linarith) (hc hx hxn) (hc (le_trans' hx hxy) hyn) hxy).2)
  have l : ((⟨fin s⟩ : Frechet).cdf 0).val.Is 0 := by
    change (F64.exp (-((fin 0).powf (-(fin s))))).Is 0
    rw [powf_zero_neg he (by linarith)]; exact Is.fin 0
  have r : ((⟨fin s⟩ : Frechet).cdf pinf).val.Is 1 := by
    change (F64.exp (-(pinf.powf (-(fin s))))).Is 1
    rw [powf_pinf_neg he (by linarith), exp_zero ((Is.fin 0).neg.congr neg_zero)]; exact Is.fin 1
  refine ⟨mono, fun x hx hxn => ⟨?_, ?_⟩, l, r⟩
  · exact le_trans' (mono x pinf hx hxn (le_top' (ne_nan_right hx)) (by simp)) ((r.le_iff Is.one).2 le_rfl)
  · exact le_trans' ((Is.zero.le_iff l).2 le_rfl) (mono 0 x (le_rfl' zero_ne_nan') (by intro h; cases h) hx hxn)

omit [FP.Lawful] [FP.Libm] in
/-- C203 (violation): for an odd integer shape the Fréchet cdf at `-0.0` — an f64 that compares equal to the left end of the
support — is `+inf`, while at `+0.0` it is 0 -/
theorem C203_frechet_violated {a : F64} {d : Frechet} (n : ℕ) (h : Frechet.new a = .ok d) (ha : a.Is (2 * n + 1)) :
    (d.cdf negZero).val = pinf ∧ ¬ (d.cdf negZero).isValid := by
  obtain ⟨h0, rfl⟩ := Frechet.new_ok.1 h
  have hs : (0:ℝ) < 2 * n + 1 := by positivity
  have e := ha.eq_fin hs.ne'
  subst e
  have hodd : isOdd (-(2 * (n:ℝ) + 1)) := ⟨-(2 * n + 1), by push_cast; ring, by
    rw [Int.odd_iff]; omega⟩
  have hv : (Frechet.cdf ⟨fin (2 * n + 1)⟩ negZero).val = pinf := by
    change F64.exp (-(negZero.powf (-(fin (2 * (n:ℝ) + 1))))) = pinf
    rw [neg_fin_ne hs.ne']
    have h1 : -(2 * (n:ℝ) + 1) ≠ 0 := neg_ne_zero.2 hs.ne'
    have : negZero.powf (fin (-(2 * (n:ℝ) + 1))) = ninf := by
      simp only [F64.powf, toReal_fin, isFinite_fin, true_and, toReal_negZero, isFinite_negZero, h1, if_false,
        zero_ne_one, isNeg_negZero, hodd, and_self, if_true, sinf]
      rw [if_neg (by linarith)]
    rw [this]; rfl
  refine ⟨hv, fun h => ?_⟩
  have := h.1
  rw [hv] at this
  obtain ⟨x, y, hx, hy, hxy⟩ := this
  simp at hx; subst hx
  have : y = (1:ℝ) := by have e : (1 : F64).ext = some ((1:ℝ) : EReal) := rfl; rw [e] at hy; cases hy; rfl
  rw [this] at hxy; exact absurd hxy (not_le.2 (EReal.coe_lt_top 1))
end

/-! non-vacuity, in real binary64 arithmetic -/
section
attribute [local instance] binary64 binary64_lawful B64.libm
example : ∃ d, Logistic.new (fin (-3)) (fin 5) = .ok d ∧ FloatCDF d.cdf ninf pinf :=
  ⟨_, Logistic.new_ok.2 ⟨fin_lt_fin.2 (by norm_num), rfl⟩,
    C202_logistic (Logistic.new_ok.2 ⟨fin_lt_fin.2 (by norm_num), rfl⟩) trivial trivial⟩
example : ∃ d, Gumbel.new (fin 7) (fin (1 / 4)) = .ok d ∧ FloatCDF d.cdf ninf pinf :=
  ⟨_, Gumbel.new_ok.2 ⟨fin_lt_fin.2 (by norm_num), rfl⟩,
    C202_gumbel (Gumbel.new_ok.2 ⟨fin_lt_fin.2 (by norm_num), rfl⟩) trivial trivial⟩
example : ∃ d, Weibull.new (fin 2) (fin 3) = .ok d ∧ FloatCDF d.cdf ninf pinf :=
  have h : Weibull.new (fin 2) (fin 3) = .ok ⟨fin 2, fin 3⟩ :=
    Weibull.new_ok.2 ⟨fin_lt_fin.2 (by norm_num), fin_lt_fin.2 (by norm_num), rfl⟩
  ⟨_, h, C202_weibull h trivial trivial⟩
example : ∃ d, Exponential.new (fin 3) = .ok d ∧ FloatCDF d.cdf 0 pinf :=
  have h : Exponential.new (fin 3) = .ok ⟨fin 3⟩ := Exponential.new_ok.2 ⟨fin_lt_fin.2 (by norm_num), rfl⟩
  ⟨_, h, C203_exponential_partial h trivial⟩
example : ∃ d, Pareto.new (fin 2) (fin 3) = .ok d ∧ FloatCDF d.cdf (fin 2) pinf :=
  have h : Pareto.new (fin 2) (fin 3) = .ok ⟨fin 2, fin 3⟩ := Pareto.new_ok.2 ⟨fin_lt_fin.2 (by norm_num), rfl⟩
  ⟨_, h, C203_pareto_partial h trivial trivial (fin_lt_fin.2 (by norm_num))⟩
example : ∃ d, Kumaraswamy.new (fin 2) (fin 3) = .ok d ∧ FloatCDF d.cdf 0 1 :=
  have h : Kumaraswamy.new (fin 2) (fin 3) = .ok ⟨fin 2, fin 3⟩ :=
    Kumaraswamy.new_ok.2 ⟨fin_lt_fin.2 (by norm_num), fin_lt_fin.2 (by norm_num), rfl⟩
  ⟨_, h, C203_kumaraswamy_partial h trivial trivial⟩
example : ∃ d, Frechet.new (fin 3) = .ok d ∧ (d.cdf 0).val.Is 0 ∧ (d.cdf negZero).val = pinf :=
  have h : Frechet.new (fin 3) = .ok ⟨fin 3⟩ := Frechet.new_ok.2 ⟨fin_lt_fin.2 (by norm_num), rfl⟩
  ⟨_, h, (C203_frechet_partial h trivial).2.2.1, (C203_frechet_violated 1 h ((Is.fin 3).congr (by norm_num))).1⟩
end
end Rstat
