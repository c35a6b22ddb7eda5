import Verif.Float.Quantile
import Verif.Spec.FloatQuantile
import Verif.Spec.FloatCDF
import Verif.Lemmas.B64Eval
import Verif.Model.Dist.Uniform
import Verif.Model.Dist.Cauchy
import Verif.Model.Dist.Exponential
import Verif.Props.Traits
import Verif.Props.Dist.Uniform
import Verif.Props.Dist.Cauchy
import Verif.Props.Dist.Exponential
import Verif.Props.Normal
import Verif.Props.FloatAccuracy3

/-! C257: the quantile functions in floating point. -/
namespace Rstat
open F64 Spec Consts
set_option linter.unusedSectionVars false

section
variable [FP] [FP.Lawful]

/-- a valid probability is a number of the unit interval -/
theorem prob_is {p : F64} (h0 : 0 ≤ p) (h1 : p ≤ 1) : p.Is p.toReal ∧ 0 ≤ p.toReal ∧ p.toReal ≤ 1 :=
  is_of_le_le (l := 0) (u := 1) Is.zero Is.one h0 h1

theorem one_mul_f64 {b : F64} {w : ℝ} (hb : b.Is w) (hw : 0 < w) (fb : IsF64 b) {p : F64} (hp : p.Is 1) : p * b = fin w := by
  rw [mul_finite hp hb, if_neg (by rw [one_mul]; exact hw.ne'), one_mul, F64.round, (fb w hb).1, if_neg (fb w hb).2, if_neg (by
    rintro ⟨h, -⟩; exact hw.ne' h)]

theorem is_pos {b : F64} {w : ℝ} (hb : b.Is w) (hw : 0 < w) : b = fin w := by
  rcases hb with rfl | ⟨rfl, rfl⟩
  · rfl
  · exact absurd hw (lt_irrefl _)

/-- C257 (uniform law): for every bounds the constructor accepts, `quantile` is monotone over every valid probability, stays
inside the support, and reaches exactly both ends of it. -/
theorem C257_uniform {a b : F64} {l w : ℝ} {d : UniformF} (h : UniformF.new a b = .ok d) (ha : a.Is l) (hb : b.Is w)
    (fa : IsF64 a) (fb : IsF64 b) :
    FloatQuantile d.quantile d.support.1 d.support.2 ∧ (d.quantile ⟨0⟩).Is l ∧ d.quantile ⟨1⟩ = d.support.2 := by
  obtain ⟨hw0, rfl⟩ := UniformF.new_ok.1 h
  have hw : 0 < w := pos_of_lt hw0 hb
  obtain rfl := is_pos hb hw
  have m : ∀ p q : Probability, p.val ≤ q.val → UniformF.quantile ⟨a, fin w, 1 / fin w⟩ p ≤ UniformF.quantile ⟨a, fin w, 1 / fin w⟩ q :=
    fun p q hpq => const_add_mono ha (mul_const_mono hw hpq)
  have q1 : UniformF.quantile ⟨a, fin w, 1 / fin w⟩ ⟨1⟩ = a + fin w := by
    show a + 1 * fin w = _
    rw [one_mul_f64 (Is.fin w) hw fb Is.one]
  have q0 : (UniformF.quantile ⟨a, fin w, 1 / fin w⟩ ⟨0⟩).Is l := by
    show (a + 0 * fin w).Is l
    have z : ((0 : F64) * fin w).Is 0 := by
      rw [mul_finite Is.zero (Is.fin w), if_pos (zero_mul w)]; exact szero_is _
    have := add_is ha z (by rw [add_zero, (fa l ha).1]; exact (fa l ha).2)
    rwa [add_zero, (fa l ha).1] at this
  refine ⟨⟨fun p q _ hpq _ => m p q hpq, fun p h0 h1 => ⟨?_, ?_⟩⟩, q0, q1⟩
  · have := m ⟨0⟩ p h0
    exact le_congr (q0.ext_eq.trans ha.ext_eq.symm) rfl this
  · have := m p ⟨1⟩ h1
    rwa [q1] at this

/-- C257 (uniform law): `quantile` at one half and `median` are the same number. -/
theorem C257_uniform_median {a b : F64} {w : ℝ} {d : UniformF} (h : UniformF.new a b = .ok d) (hb : b.Is w) :
    d.quantile ⟨fin (1 / 2)⟩ = d.median := by
  obtain ⟨hw0, rfl⟩ := UniformF.new_ok.1 h
  have hw : 0 < w := pos_of_lt hw0 hb
  obtain rfl := is_pos hb hw
  show a + fin (1 / 2) * fin w = a + fin w / 2
  congr 1
  rw [mul_finite (Is.fin _) (Is.fin w), if_neg (by positivity), div_finite (Is.fin w) (Is.num 2) (by norm_num), if_neg (by positivity)]
  congr 1; ring

/-- C257 (exponential law, what holds): `quantile` is monotone over the valid probabilities. -/
theorem C257_exponential_partial {a : F64} {l : ℝ} {d : Exponential} (h : Exponential.new a = .ok d) (ha : a.Is l) :
    ∀ p q : Probability, 0 ≤ p.val → p.val ≤ q.val → q.val ≤ 1 → d.quantile p ≤ d.quantile q := by
  obtain ⟨h0, rfl⟩ := Exponential.new_ok.1 h
  have hl := pos_of_lt h0 ha
  obtain rfl := is_pos ha hl
  exact fun p q _ hpq _ => div_const_mono hl (neg_anti (const_sub_anti Is.one hpq))

/-- C257 (violated): for every rate and every probability the quantile of an exponential law is not positive, so below the
median of the law, whereas the support is `[0, ∞)`; for a probability below one half it is strictly negative, outside the
support (rates up to `2^1000`, so that the quotient does not underflow). -/
theorem C257_exponential_violated {a : F64} {l : ℝ} {d : Exponential} (h : Exponential.new a = .ok d) (ha : a.Is l) :
    (∀ p : Probability, 0 ≤ p.val → p.val ≤ 1 → d.quantile p ≤ 0) ∧
    (l ≤ 2 ^ 900 → ∀ p : Probability, 0 ≤ p.val → p.val ≤ fin (1 / 2) → d.quantile p < 0) := by
  obtain ⟨h0, rfl⟩ := Exponential.new_ok.1 h
  have hl := pos_of_lt h0 ha
  obtain rfl := is_pos ha hl
  have key : ∀ p : Probability, ∀ c r : ℝ, p.val ≤ fin r → FP.rnd (1 - r) = c → ¬ FP.huge c →
      Exponential.quantile ⟨fin l⟩ p ≤ F64.round (-c / l) := by
    intro p c r hp hc hh
    have e : (1 - fin r : F64).Is c := by
      have := sub_is (a := 1) (b := fin r) Is.one (Is.fin r) (by rw [hc]; exact hh)
      rwa [hc] at this
    have s1 : Exponential.quantile ⟨fin l⟩ p ≤ -(1 - fin r) / fin l :=
      div_const_mono hl (neg_anti (const_sub_anti Is.one hp))
    exact le_congr rfl (div_fin_ext e.neg (Is.fin l) hl.ne') s1
  refine ⟨fun p p0 p1 => ?_, fun hl2 p p0 p1 => ?_⟩
  · have := key p 0 1 p1 (by rw [sub_self, rnd_zero]) not_huge_zero
    rw [neg_zero, zero_div] at this
    exact le_congr rfl round_zero_is.ext_eq this
  · have hh : FP.rnd (1 - 1 / 2) = 1 / 2 := by
      have := FP.Lawful.rnd_dyadic 1 1 (by norm_num) (by norm_num)
      norm_num at this ⊢; exact this
    have := key p (1 / 2) (1 / 2) p1 hh (FP.Lawful.not_huge _ (by rw [abs_of_pos (by norm_num)]; exact le_trans (by norm_num) (one_le_pow₀ (by norm_num))))
    refine lt_of_le_of_lt' this ?_
    have b1 : -(1 / 2) / l ≤ -(1 / 2 ^ 901) := by
      rw [neg_div, neg_le_neg_iff, div_div, div_le_div_iff_of_pos_left one_pos (by positivity) (by positivity)]
      calc 2 * l ≤ 2 * 2 ^ 900 := by linarith
        _ = 2 ^ 901 := by rw [pow_succ (2:ℝ) 900]; ring
    have d : FP.rnd (-(1 / 2 ^ 901)) = -(1 / 2 ^ 901) := by
      have := FP.Lawful.rnd_dyadic 1 901 (by norm_num) (by norm_num)
      rw [FP.Lawful.rnd_neg]; push_cast at this; rw [this]
    have p2 : (0:ℝ) < 1 / 2 ^ 901 := by positivity
    refine lt_of_le_of_lt' (round_mono b1) ?_
    rw [F64.round, d, if_neg, if_neg (fun hc => absurd hc.1 (by linarith)), show (0:F64) = fin 0 from rfl, fin_lt_fin]
    · linarith
    · refine FP.Lawful.not_huge _ ?_
      rw [abs_neg, abs_of_pos p2]
      exact le_trans (div_le_one_of_le₀ (one_le_pow₀ (by norm_num)) (by positivity)) (one_le_pow₀ (by norm_num))

/-! #### the discrete uniform law -/
theorem floor_val {a : F64} {r : ℝ} (ha : a.Is r) : (F64.floor a).Is ⌊r⌋ := by
  rcases ha with rfl | ⟨rfl, rfl⟩
  · exact Is.fin _
  · simp [F64.floor, Is]

theorem floor_mono' {a b : F64} {r s : ℝ} (ha : a.Is r) (hb : b.Is s) (h : r ≤ s) : a.floor ≤ b.floor :=
  ((floor_val ha).le_iff (floor_val hb)).2 (Int.cast_le.2 (Int.floor_mono h))

/-- C257 (discrete uniform law, what holds): on every law the constructor accepts `quantile` returns without panicking, is
monotone over every valid probability, and is at least the lower bound (as an f64). -/
theorem C257_uniform_int_partial {pr : Profile} {lb : ℤ} {w : ℕ} {d : UniformI} (hf : UniformI.Fits lb w)
    (h : UniformI.new pr lb w = .ok (.ok d)) (p q : Probability) (h0 : 0 ≤ p.val) (hpq : p.val ≤ q.val) (h1 : q.val ≤ 1) :
    ∃ x y, d.quantile pr p = .ok x ∧ d.quantile pr q = .ok y ∧ x ≤ y ∧ F64.ofInt lb ≤ x := by
  obtain ⟨hw, rfl⟩ := (UniformI.new_ok hf).1 h
  obtain ⟨b1, b2, b3⟩ := UniformI.Fits.bounds hf
  have hw1 : i64chk pr ((w : ℤ) + 1) = .ok ((w : ℤ) + 1) := i64chk_ok ⟨by unfold I64MIN; omega, by omega⟩
  have hspan : UniformI.span pr ⟨lb, w, 1 / F64.ofInt ((w : ℤ) + 1)⟩ = .ok (w + 1) := by
    unfold UniformI.span
    rw [hw1, exc_ok_bind]
    refine congrArg Except.ok ?_
    unfold I64MAX at b3; omega
  have fin64 : ∀ v : ℝ, |v| ≤ 2 ^ 65 → |FP.rnd v| ≤ 2 ^ 66 ∧ ¬ FP.huge (FP.rnd v) := by
    intro v hv
    have e := FP.Lawful.rnd_err v
    have t : (1:ℝ) / 2 ^ 1075 ≤ 1 := div_le_one_of_le₀ (one_le_pow₀ (by norm_num)) (by positivity)
    generalize (1:ℝ) / 2 ^ 1075 = τ at *
    have e2 := abs_sub_abs_le_abs_sub (FP.rnd v) v
    have a3 : |FP.rnd v| ≤ 2 ^ 66 := by
      norm_num at hv e ⊢
      linarith
    exact ⟨a3, FP.Lawful.not_huge _ (a3.trans (pow_le_pow_right₀ (by norm_num) (by norm_num)))⟩
  have hw64 : |((w + 1 : ℕ) : ℝ)| ≤ 2 ^ 64 := by
    rw [abs_of_nonneg (by positivity)]
    have : w + 1 ≤ 2 ^ 64 := by unfold I64MAX at b3; omega
    exact_mod_cast this
  have hlb : |((lb : ℤ) : ℝ)| ≤ 2 ^ 64 := by
    have c1 : -2 ^ 64 ≤ lb := by unfold I64MIN at b1; omega
    have c2 : lb ≤ 2 ^ 64 := by unfold I64MAX at b2; omega
    rw [abs_le]; constructor
    · exact_mod_cast c1
    · exact_mod_cast c2
  have hn : (F64.ofNat (w + 1)).Is (FP.rnd ((w + 1 : ℕ) : ℝ)) := round_is (fin64 _ (hw64.trans (by norm_num))).2
  have hL : (F64.ofInt lb).Is (FP.rnd (lb : ℝ)) := round_is (fin64 _ (hlb.trans (by norm_num))).2
  set N := FP.rnd ((w + 1 : ℕ) : ℝ) with hN
  have N0 : 0 ≤ N := by
    have := FP.Lawful.rnd_mono (show (0:ℝ) ≤ ((w + 1 : ℕ) : ℝ) by positivity)
    rwa [rnd_zero] at this
  have N1 : N ≤ 2 ^ 65 := by
    have e := FP.Lawful.rnd_err ((w + 1 : ℕ) : ℝ)
    have t : (1:ℝ) / 2 ^ 1075 ≤ 1 := div_le_one_of_le₀ (one_le_pow₀ (by norm_num)) (by positivity)
    generalize (1:ℝ) / 2 ^ 1075 = τ at *
    have e2 := (abs_le.1 e).2
    have e3 := (le_abs_self _).trans hw64
    rw [← hN] at e2
    norm_num at hw64 e2 e3 ⊢
    linarith
  have prod : ∀ u : Probability, 0 ≤ u.val → u.val ≤ 1 → (u.val * F64.ofNat (w + 1)).Is (FP.rnd (u.val.toReal * N)) := by
    intro u u0 u1
    obtain ⟨i, i0, i1⟩ := prob_is u0 u1
    refine mul_is i hn (fin64 _ ?_).2
    rw [abs_of_nonneg (mul_nonneg i0 N0)]; nlinarith
  have hp1 := le_trans' hpq h1
  have hq0 := le_trans' h0 hpq
  refine ⟨_, _, by unfold UniformI.quantile; simp only [hspan]; rfl, by unfold UniformI.quantile; simp only [hspan]; rfl, ?_, ?_⟩
  · refine const_add_mono hL (floor_mono' (prod p h0 hp1) (prod q hq0 h1) (FP.Lawful.rnd_mono ?_))
    exact mul_le_mul_of_nonneg_right (((prob_is h0 hp1).1.le_iff (prob_is hq0 h1).1).1 hpq) N0
  · have z : (0 : F64) ≤ (p.val * F64.ofNat (w + 1)).floor := by
      refine (Is.zero.le_iff (floor_val (prod p h0 hp1))).2 (Int.cast_nonneg ?_)
      refine Int.floor_nonneg.2 ?_
      have := FP.Lawful.rnd_mono (mul_nonneg (prob_is h0 hp1).2.1 N0)
      rwa [rnd_zero] at this
    exact le_add_self_of ⟨hL, FP.Lawful.rnd_idem _, (fin64 _ (hlb.trans (by norm_num))).2⟩ z

/-! #### Cauchy and normal -/
variable [FP.QuantileFns]

theorem tan_ext {a : F64} {r : ℝ} (ha : a.Is r) : a.tan.ext = (F64.round (FP.ftan r)).ext := by
  rcases ha with rfl | ⟨rfl, rfl⟩
  · rfl
  · show (if FP.ftan 0 = 0 then negZero else F64.round (FP.ftan 0)).ext = _
    rw [if_pos FP.QuantileFns.tan_zero, FP.QuantileFns.tan_zero, round_zero_is.ext_eq]; rfl

/-- the argument of `tan` for a valid probability -/
theorem cauchy_arg {c : ℝ} (c0 : 0 < c) (hc : (PI : F64).Is c) (hc2 : FP.rnd (c / 2) < Real.pi / 2) {p : F64} (h0 : 0 ≤ p) (h1 : p ≤ 1) :
    ∃ v, (PI * (p - fin (1 / 2))).Is v ∧ -(Real.pi / 2) < v ∧ v < Real.pi / 2 := by
  obtain ⟨i, i0, i1⟩ := prob_is h0 h1
  have rh : FP.rnd (1 / 2) = 1 / 2 := by
    have := FP.Lawful.rnd_dyadic 1 1 (by norm_num) (by norm_num)
    norm_num at this ⊢; exact this
  have small : ∀ v : ℝ, |v| ≤ 2 → ¬ FP.huge v := fun v hv =>
    FP.Lawful.not_huge v (hv.trans (le_self_pow₀ (by norm_num) (by norm_num)))
  have u1 : FP.rnd (p.toReal - 1 / 2) ≤ 1 / 2 := by
    have := FP.Lawful.rnd_mono (show p.toReal - 1 / 2 ≤ 1 / 2 by linarith); rwa [rh] at this
  have u2 : -(1 / 2) ≤ FP.rnd (p.toReal - 1 / 2) := by
    have := FP.Lawful.rnd_mono (show -(1 / 2) ≤ p.toReal - 1 / 2 by linarith); rwa [FP.Lawful.rnd_neg, rh] at this
  have hs := sub_is i (Is.fin (1 / 2)) (small _ (abs_le.2 ⟨by linarith, by linarith⟩))
  have v1 : FP.rnd (c * FP.rnd (p.toReal - 1 / 2)) ≤ FP.rnd (c / 2) := FP.Lawful.rnd_mono (by nlinarith)
  have v2 : -FP.rnd (c / 2) ≤ FP.rnd (c * FP.rnd (p.toReal - 1 / 2)) := by
    rw [← FP.Lawful.rnd_neg]; exact FP.Lawful.rnd_mono (by nlinarith)
  have pi2 : Real.pi / 2 < 2 := by have := Real.pi_lt_d2; linarith
  exact ⟨_, mul_is hc hs (small _ (abs_le.2 ⟨by linarith, by linarith⟩)), by linarith, by linarith⟩

/-- C257 (Cauchy law): when the rounded constants `π` and `π/2` are below the real ones (as in binary64), `quantile` is
monotone over every valid probability, 0 and 1 included, and never NaN. -/
theorem C257_cauchy {a b : F64} {l w c : ℝ} {d : Cauchy} (h : Cauchy.new a b = .ok d) (ha : a.Is l) (hb : b.Is w)
    (c0 : 0 < c) (hc : (PI : F64).Is c) (hc2 : FP.rnd (c / 2) < Real.pi / 2) : FloatQuantile d.quantile ninf pinf := by
  obtain ⟨h0, rfl⟩ := Cauchy.new_ok.1 h
  have hw := pos_of_lt h0 hb
  obtain rfl := is_pos hb hw
  have m : ∀ p q : Probability, 0 ≤ p.val → p.val ≤ q.val → q.val ≤ 1 → Cauchy.quantile ⟨a, fin w⟩ p ≤ Cauchy.quantile ⟨a, fin w⟩ q := by
    intro p q p0 hpq q1
    refine const_add_mono ha (const_mul_mono hw ?_)
    obtain ⟨r, hr, r1, r2⟩ := cauchy_arg c0 hc hc2 p0 (le_trans' hpq q1)
    obtain ⟨s, hs, s1, s2⟩ := cauchy_arg c0 hc hc2 (le_trans' p0 hpq) q1
    have hle : PI * (p.val - fin (1 / 2)) ≤ PI * (q.val - fin (1 / 2)) := by
      rw [is_pos hc c0]; exact const_mul_mono c0 (sub_const_mono (Is.fin _) hpq)
    exact le_congr (tan_ext hr).symm (tan_ext hs).symm
      (round_mono (FP.QuantileFns.tan_mono r s r1 ((hr.le_iff hs).1 hle) s2))
  exact ⟨m, fun p p0 p1 => ⟨bot_le' (ne_nan_right (m p p p0 (le_rfl' (ne_nan_right p0)) p1)), le_top' (ne_nan_right (m p p p0 (le_rfl' (ne_nan_right p0)) p1))⟩⟩

/-- C257 (Cauchy law): `quantile` at one half is exactly `median`. -/
theorem C257_cauchy_median {a b : F64} {l w c : ℝ} {d : Cauchy} (h : Cauchy.new a b = .ok d) (ha : a.Is l) (hb : b.Is w)
    (fa : IsF64 a) (hc : (PI : F64).Is c) : (d.quantile ⟨fin (1 / 2)⟩).Is l ∧ d.median.Is l := by
  obtain ⟨h0, rfl⟩ := Cauchy.new_ok.1 h
  refine ⟨?_, ha⟩
  have s : (fin (1 / 2) - fin (1 / 2) : F64).Is 0 := by
    have := sub_is (Is.fin (1 / 2)) (Is.fin (1 / 2)) (by rw [sub_self, rnd_zero]; exact not_huge_zero)
    rwa [sub_self, rnd_zero] at this
  have z0 : ∀ {x y : F64} {u : ℝ}, x.Is u → y.Is 0 → (x * y).Is 0 := fun hx hy => by
    rw [mul_finite hx hy, if_pos (mul_zero _)]; exact szero_is _
  have t : (PI * (fin (1 / 2) - fin (1 / 2)) : F64).tan.Is 0 := by
    refine Is.of_ext (a := F64.round 0) round_zero_is ?_
    rw [tan_ext (z0 hc s), FP.QuantileFns.tan_zero]
  have := add_is ha (z0 hb t) (by rw [add_zero, (fa l ha).1]; exact (fa l ha).2)
  rwa [add_zero, (fa l ha).1] at this

/-- C257 (normal law): for every mean and every variance (every positive f64 is at least `2^-1074`), `quantile` is monotone
over the probabilities strictly between 0 and 1 and never NaN there. -/
theorem C257_normal {a b : F64} {l v : ℝ} {d : UvNormal} (h : UvNormal.new a b = .ok d) (ha : a.Is l) (hb : b.Is v)
    (hv : 1 / 2 ^ 1074 ≤ v) (hv2 : v ≤ 2 ^ 1023) : FloatQuantileInner d.quantile ninf pinf := by
  obtain ⟨h0, rfl⟩ := UvNormal.new_ok.1 h
  have v0 : 0 < v := lt_of_lt_of_le (by positivity) hv
  have hs : ∃ k, 0 < k ∧ (b.sqrt).Is k := by
    have e : b.sqrt = F64.round (Real.sqrt v) := by
      rw [is_pos hb v0]; exact if_neg (not_lt.2 v0.le)
    have n : FP.rnd (1 / 2 ^ 537) = 1 / 2 ^ 537 := by
      have := FP.Lawful.rnd_dyadic 1 537 (by norm_num) (by norm_num)
      push_cast at this; exact this
    have q : (1:ℝ) / 2 ^ 537 ≤ Real.sqrt v := by
      refine Real.le_sqrt_of_sq_le (le_trans (le_of_eq ?_) hv)
      rw [div_pow, one_pow, ← pow_mul]
    have r := FP.Lawful.rnd_mono q
    rw [n] at r
    have k0 : 0 < FP.rnd (Real.sqrt v) := lt_of_lt_of_le (by positivity) r
    refine ⟨_, k0, ?_⟩
    rw [e]
    refine round_is ?_
    have s1 : Real.sqrt v ≤ 2 ^ 512 := by
      refine Real.sqrt_le_iff.2 ⟨by positivity, hv2.trans ?_⟩
      rw [← pow_mul]; exact pow_le_pow_right₀ (by norm_num) (by norm_num)
    have e := FP.Lawful.rnd_err (Real.sqrt v)
    rw [abs_of_nonneg (Real.sqrt_nonneg v)] at e
    refine FP.Lawful.not_huge _ ?_
    rw [abs_of_pos k0]
    have t : (1:ℝ) / 2 ^ 1075 ≤ 1 := div_le_one_of_le₀ (one_le_pow₀ (by norm_num)) (by positivity)
    have t2 : Real.sqrt v / 2 ^ 53 ≤ Real.sqrt v := div_le_self (Real.sqrt_nonneg v) (one_le_pow₀ (by norm_num))
    have e2 := (abs_le.1 e).2
    have M1 : (1:ℝ) ≤ 2 ^ 512 := one_le_pow₀ (by norm_num)
    have e3 : FP.rnd (Real.sqrt v) ≤ 2 ^ 2 * 2 ^ 512 := by
      generalize (2:ℝ) ^ 512 = M at *
      generalize Real.sqrt v / 2 ^ 53 = X at *
      generalize (1:ℝ) / 2 ^ 1075 = τ at *
      linarith
    exact e3.trans (by rw [← pow_add]; exact pow_le_pow_right₀ (by norm_num) (by norm_num))
  obtain ⟨k, k0, hk⟩ := hs
  have m : ∀ p q : Probability, 0 < p.val → p.val ≤ q.val → q.val < 1 → UvNormal.quantile ⟨a, b⟩ p ≤ UvNormal.quantile ⟨a, b⟩ q := by
    intro p q p0 hpq q1
    show a + b.sqrt * p.val.normInv ≤ a + b.sqrt * q.val.normInv
    rw [is_pos hk k0]
    exact const_add_mono ha (const_mul_mono k0 (FP.QuantileFns.normInv_mono _ _ p0 hpq q1))
  refine ⟨m, fun p p0 p1 => ?_⟩
  have := m p p p0 (le_rfl' (ne_nan_right (le_of_lt' p0))) p1
  exact ⟨bot_le' (ne_nan_right this), le_top' (ne_nan_right this)⟩

/-- C257 (normal law): `quantile` at one half is exactly the mean. -/
theorem C257_normal_median {a b : F64} {l k : ℝ} {d : UvNormal} (h : UvNormal.new a b = .ok d) (ha : a.Is l) (fa : IsF64 a)
    (hk : b.sqrt.Is k) : (d.quantile ⟨fin (1 / 2)⟩).Is l ∧ d.mean.Is l := by
  obtain ⟨h0, rfl⟩ := UvNormal.new_ok.1 h
  refine ⟨?_, ha⟩
  have z : (b.sqrt * F64.normInv (fin (1 / 2))).Is 0 := by
    rw [mul_finite hk FP.QuantileFns.normInv_half, if_pos (mul_zero _)]; exact szero_is _
  have := add_is ha z (by rw [add_zero, (fa l ha).1]; exact (fa l ha).2)
  rwa [add_zero, (fa l ha).1] at this

/-- C257: a quantile function monotone inside `(0,1)` whose outer quartiles are f64 numbers gives an ordered five-number
summary, fences included. -/
theorem C257_summary {Q : Probability → F64} {lo hi : F64} (hQ : FloatQuantileInner Q lo hi) {q1 q3 : ℝ}
    (h1 : (lowerQuartile Q).Is q1) (f1 : IsF64 (lowerQuartile Q)) (h3 : (upperQuartile Q).Is q3) (f3 : IsF64 (upperQuartile Q)) :
    OrderedSummary (lowerFence Q) (lowerQuartile Q) (median Q) (upperQuartile Q) (upperFence Q) (iqr Q) :=
  C23_ordered Q hQ.mono q1 q3 ⟨h1, f1 q1 h1⟩ ⟨h3, f3 q3 h3⟩

/-- a quantile function on the closed interval is one on the open interval -/
theorem Spec.FloatQuantile.inner {Q : Probability → F64} {lo hi : F64} (h : FloatQuantile Q lo hi) : FloatQuantileInner Q lo hi :=
  ⟨fun p q a b c => h.mono p q (le_of_lt' a) b (le_of_lt' c), fun p a b => h.range p (le_of_lt' a) (le_of_lt' b)⟩

/-- the result of an addition is an f64 -/
theorem isF64_add {a b : F64} {r s : ℝ} (ha : a.Is r) (hb : b.Is s) : IsF64 (a + b) := by
  intro t ht
  have e := add_ext ha hb
  have i : (F64.round (r + s)).Is t := Is.of_ext ht e
  by_cases hh : FP.huge (FP.rnd (r + s))
  · unfold F64.round at i
    rw [if_pos hh] at i
    split_ifs at i <;> simp [Is] at i
  · obtain rfl := (round_is hh).eq i
    exact ⟨FP.Lawful.rnd_idem _, hh⟩

/-- C257 (uniform law): the quartiles, median and fences of every uniform law whose bounds and width are below `2^1000` are
ordered. -/
theorem C257_uniform_summary {a b : F64} {l w : ℝ} {d : UniformF} (h : UniformF.new a b = .ok d) (ha : a.Is l) (hb : b.Is w)
    (fa : IsF64 a) (fb : IsF64 b) (hl : |l| ≤ 2 ^ 1000) (hw2 : w ≤ 2 ^ 1000) :
    OrderedSummary (lowerFence d.quantile) (lowerQuartile d.quantile) (median d.quantile) (upperQuartile d.quantile)
      (upperFence d.quantile) (iqr d.quantile) := by
  have Q := (C257_uniform h ha hb fa fb).1
  obtain ⟨hw0, rfl⟩ := UniformF.new_ok.1 h
  have hw : 0 < w := pos_of_lt hw0 hb
  have t : (1:ℝ) / 2 ^ 1075 ≤ 1 := div_le_one_of_le₀ (one_le_pow₀ (by norm_num)) (by positivity)
  have grow : ∀ v M : ℝ, |v| ≤ M → 1 ≤ M → |FP.rnd v| ≤ 3 * M := by
    intro v M hv hM
    have e := FP.Lawful.rnd_err v
    have e2 := abs_sub_abs_le_abs_sub (FP.rnd v) v
    have e3 : |v| / 2 ^ 53 ≤ |v| := div_le_self (abs_nonneg _) (one_le_pow₀ (by norm_num))
    linarith only [e, e2, e3, hv, hM, t]
  have M1 : (1:ℝ) ≤ 2 ^ 1000 := one_le_pow₀ (by norm_num)
  have big : (12:ℝ) * 2 ^ 1000 ≤ 2 ^ 1023 := by
    calc (12:ℝ) * 2 ^ 1000 ≤ 2 ^ 23 * 2 ^ 1000 := by
          refine mul_le_mul_of_nonneg_right (by norm_num) (by positivity)
      _ = 2 ^ 1023 := by rw [← pow_add]
  have key : ∀ p : ℝ, 0 < p → p < 1 → ∃ q, (UniformF.quantile ⟨a, b, 1 / b⟩ ⟨fin p⟩).Is q ∧ IsF64 (UniformF.quantile ⟨a, b, 1 / b⟩ ⟨fin p⟩) := by
    intro p p0 p1
    have g1 : |p * w| ≤ 2 ^ 1000 := by
      rw [abs_of_pos (mul_pos p0 hw)]
      exact (mul_le_of_le_one_left hw.le p1.le).trans hw2
    have g2 := grow _ _ g1 M1
    have i1 : (fin p * b).Is (FP.rnd (p * w)) := mul_is (Is.fin p) hb (FP.Lawful.not_huge _ (le_trans g2 (le_trans (mul_le_mul_of_nonneg_right (by norm_num) (by positivity)) big)))
    have g3 : |l + FP.rnd (p * w)| ≤ 4 * 2 ^ 1000 := (abs_add_le _ _).trans (by
      generalize (2:ℝ) ^ 1000 = M at *
      linarith only [g2, hl])
    have g4 := grow _ _ g3 (by
      generalize (2:ℝ) ^ 1000 = M at *
      linarith only [M1])
    exact ⟨_, add_is ha i1 (FP.Lawful.not_huge _ (le_trans g4 (le_of_eq_of_le (by rw [← mul_assoc]; norm_num) big))), isF64_add ha i1⟩
  obtain ⟨q1, i1, f1⟩ := key (1 / 4) (by norm_num) (by norm_num)
  obtain ⟨q3, i3, f3⟩ := key (3 / 4) (by norm_num) (by norm_num)
  exact C257_summary Q.inner i1 f1 i3 f3
end

/-! #### binary64 -/
section
open B64
attribute [local instance] binary64 binary64_lawful B64.libm B64.quantileFns

/-- C257: in binary64 the Cauchy quantile function is monotone over every valid probability and never NaN, for every location
and scale -/
theorem C257_cauchy_binary64 {a b : F64} {l w : ℝ} {d : Cauchy} (h : Cauchy.new a b = .ok d) (ha : a.Is l) (hb : b.Is w) :
    FloatQuantile d.quantile ninf pinf := by
  have p1 := Real.pi_gt_d20
  refine C257_cauchy (c := rnd Real.pi) h ha hb (by rw [rnd_pi]; norm_num) (round_is (FP.Lawful.not_huge _ ?_)) ?_
  · show |rnd Real.pi| ≤ _
    rw [rnd_pi, abs_of_pos (by norm_num)]
    exact le_trans (by norm_num : _ ≤ (2:ℝ) ^ 2) (pow_le_pow_right₀ (by norm_num) (by norm_num))
  · show rnd (rnd Real.pi / 2) < _
    have e : rnd Real.pi / 2 = rnd (Real.pi / 2) := by rw [rnd_pi, rnd_pi_half]; norm_num
    rw [e, rnd_idem, rnd_pi_half]
    norm_num at p1 ⊢; linarith

/-- non-vacuity: a Cauchy law with location -3 and scale 2 -/
example : ∃ d, Cauchy.new (fin (-3)) (fin 2) = .ok d ∧ FloatQuantile d.quantile ninf pinf ∧ (d.quantile ⟨fin (1 / 2)⟩).Is (-3) := by
  have h : Cauchy.new (fin (-3)) (fin 2) = .ok ⟨fin (-3), fin 2⟩ := Cauchy.new_ok.2 ⟨fin_lt_fin.2 (by norm_num), rfl⟩
  refine ⟨_, h, C257_cauchy_binary64 h (Is.fin _) (Is.fin _), ?_⟩
  have f : IsF64 (fin (-3)) := isF64_neg (isF64_small 3 (by norm_num))
  refine (C257_cauchy_median (c := rnd Real.pi) h (Is.fin _) (Is.fin _) f (round_is (FP.Lawful.not_huge _ ?_))).1
  show |rnd Real.pi| ≤ _
  rw [rnd_pi, abs_of_pos (by norm_num)]
  exact le_trans (by norm_num : _ ≤ (2:ℝ) ^ 2) (pow_le_pow_right₀ (by norm_num) (by norm_num))

/-- non-vacuity: the uniform law on `[-3, 2]` -/
example : ∃ d, UniformF.new (fin (-3)) (fin (5:ℕ)) = .ok d ∧ FloatQuantile d.quantile d.support.1 d.support.2 ∧
    OrderedSummary (lowerFence d.quantile) (lowerQuartile d.quantile) (median d.quantile) (upperQuartile d.quantile)
      (upperFence d.quantile) (iqr d.quantile) := by
  have h : UniformF.new (fin (-3)) (fin (5:ℕ)) = .ok ⟨fin (-3), fin (5:ℕ), 1 / fin (5:ℕ)⟩ := UniformF.new_ok.2 ⟨fin_lt_fin.2 (by norm_num), rfl⟩
  have f : IsF64 (fin (-3)) := isF64_neg (isF64_small 3 (by norm_num))
  have M : (8:ℝ) ≤ 2 ^ 1000 := le_trans (by norm_num : (8:ℝ) ≤ 2 ^ 3) (pow_le_pow_right₀ (by norm_num) (by norm_num))
  refine ⟨_, h, (C257_uniform h (Is.fin _) (Is.fin _) f (isF64_small 5 (by norm_num))).1,
    C257_uniform_summary h (Is.fin _) (Is.fin _) f (isF64_small 5 (by norm_num)) ?_ ?_⟩
  · rw [abs_neg, abs_of_pos (by norm_num)]; exact le_trans (by norm_num) M
  · exact le_trans (by norm_num) M

/-- non-vacuity: a normal law with mean 3 and variance 5 -/
example : ∃ d, UvNormal.new (fin (3:ℕ)) (fin (5:ℕ)) = .ok d ∧ FloatQuantileInner d.quantile ninf pinf := by
  have h : UvNormal.new (fin (3:ℕ)) (fin (5:ℕ)) = .ok ⟨fin (3:ℕ), fin (5:ℕ)⟩ := UvNormal.new_ok.2 ⟨lt_of_pos (by norm_num) (Is.fin _), rfl⟩
  refine ⟨_, h, C257_normal h (Is.fin _) (Is.fin _) ?_ ?_⟩
  · exact (div_le_one_of_le₀ (one_le_pow₀ (by norm_num)) (by positivity)).trans (by norm_num)
  · exact le_trans (by norm_num : _ ≤ (2:ℝ) ^ 3) (pow_le_pow_right₀ (by norm_num) (by norm_num))

/-- non-vacuity of the violation: an exponential law of rate 2 has a negative quantile at one quarter -/
example : ∃ d, Exponential.new (fin 2) = .ok d ∧ d.quantile ⟨fin (1 / 4)⟩ < 0 := by
  have h : Exponential.new (fin 2) = .ok ⟨fin 2⟩ := Exponential.new_ok.2 ⟨fin_lt_fin.2 (by norm_num), rfl⟩
  exact ⟨_, h, (C257_exponential_violated h (Is.fin _)).2 (le_self_pow₀ (by norm_num) (by norm_num)) _
    (fin_le_fin.2 (by norm_num)) (fin_le_fin.2 (by norm_num))⟩

/-- non-vacuity: a discrete uniform law on `-3 … 7` -/
example : ∃ d x y, UniformI.new .release (-3) 10 = .ok (.ok d) ∧ d.quantile .release ⟨fin (1 / 4)⟩ = .ok x ∧
    d.quantile .release ⟨fin (3 / 4)⟩ = .ok y ∧ x ≤ y := by
  have hf : UniformI.Fits (-3) 10 := by unfold UniformI.Fits; omega
  have h := (UniformI.new_ok (pr := .release) (d := ⟨-3, (10 : ℕ), 1 / F64.ofInt (((10 : ℕ) : ℤ) + 1)⟩) hf).2 ⟨by norm_num, rfl⟩
  obtain ⟨x, y, hx, hy, hxy, _⟩ := C257_uniform_int_partial hf h ⟨fin (1 / 4)⟩ ⟨fin (3 / 4)⟩ (fin_le_fin.2 (by norm_num))
    (fin_le_fin.2 (by norm_num)) (fin_le_fin.2 (by norm_num))
  exact ⟨_, x, y, h, hx, hy, hxy⟩

/-- C257 (violated, binary64): for every discrete uniform law whose bounds are below `2^52` in magnitude, `quantile(1)` is
one more than the largest value of the support. -/
theorem C257_uniform_int_violated {pr : Profile} {lb : ℤ} {w : ℕ} {d : UniformI} (hf : UniformI.Fits lb w)
    (h : UniformI.new pr lb w = .ok (.ok d)) (h1 : -2 ^ 52 ≤ lb) (h2 : lb + w < 2 ^ 52) :
    ∃ x, d.quantile pr ⟨1⟩ = .ok x ∧ x.Is (lb + w + 1 : ℤ) ∧ d.support pr = .ok (lb, lb + w) := by
  obtain ⟨hw, rfl⟩ := (UniformI.new_ok hf).1 h
  obtain ⟨b1, b2, b3⟩ := UniformI.Fits.bounds hf
  have hw1 : i64chk pr ((w : ℤ) + 1) = .ok ((w : ℤ) + 1) := i64chk_ok ⟨by unfold I64MIN; omega, by omega⟩
  have hspan : UniformI.span pr ⟨lb, w, 1 / F64.ofInt ((w : ℤ) + 1)⟩ = .ok (w + 1) := by
    unfold UniformI.span
    rw [hw1, exc_ok_bind]
    refine congrArg Except.ok ?_
    unfold I64MAX at b3; omega
  have ex : ∀ z : ℤ, |z| ≤ 2 ^ 53 → FP.rnd (z : ℝ) = z ∧ ¬ FP.huge (FP.rnd (z : ℝ)) := by
    intro z hz
    have e := FP.Lawful.rnd_dyadic z 0 hz (by norm_num)
    rw [pow_zero, div_one] at e
    refine ⟨e, ?_⟩
    rw [e]
    refine FP.Lawful.not_huge _ (le_trans (b := (2:ℝ) ^ 53) ?_ (pow_le_pow_right₀ (by norm_num) (by norm_num)))
    exact_mod_cast hz
  have iz : ∀ {a : F64} {z : ℤ}, |z| ≤ 2 ^ 53 → a = F64.round (z : ℝ) → a.Is z := by
    rintro a z hz rfl
    have := round_is (ex z hz).2
    rwa [(ex z hz).1] at this
  have iL : (F64.ofInt lb).Is lb := iz (abs_le.2 ⟨by omega, by omega⟩) rfl
  have iN : (F64.ofNat (w + 1)).Is ((w + 1 : ℤ) : ℝ) := iz (abs_le.2 ⟨by omega, by omega⟩) (by
    unfold F64.ofNat; push_cast; rfl)
  have iP : ((1 : F64) * F64.ofNat (w + 1)).Is ((w + 1 : ℤ) : ℝ) := by
    have e := ex (w + 1) (abs_le.2 ⟨by omega, by omega⟩)
    have := mul_is (a := 1) Is.one iN (by rw [one_mul]; exact e.2)
    rwa [one_mul, e.1] at this
  have iF := floor_val iP
  rw [Int.floor_intCast] at iF
  refine ⟨_, by unfold UniformI.quantile; simp only [hspan]; rfl, ?_, ?_⟩
  · have e := ex (lb + (w + 1)) (abs_le.2 ⟨by omega, by omega⟩)
    have c : ((lb : ℤ) : ℝ) + ((w + 1 : ℤ) : ℝ) = ((lb + (w + 1) : ℤ) : ℝ) := by push_cast; ring
    have := add_is iL iF (by rw [c]; exact e.2)
    rw [c, e.1] at this
    exact this.congr (by push_cast; ring)
  · unfold UniformI.support
    rw [i64chk_ok ⟨by omega, b2⟩]; rfl
end
end Rstat
