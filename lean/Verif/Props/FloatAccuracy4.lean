import Verif.Props.FloatAccuracy3
import Verif.Props.FloatSample
import Verif.Props.FloatQuantile
import Verif.Props.Dist.Kumaraswamy
import Verif.Props.Dist.Uniform

/-! C266: accuracy of floating-point distribution functions, continued: Kumaraswamy, uniform. -/
set_option linter.unusedSectionVars false
namespace Rstat
open F64 Spec Consts

/-- on the unit interval a power with exponent at least 1 is Lipschitz -/
theorem rpow_lip {x y k : ℝ} (x0 : 0 ≤ x) (x1 : x ≤ 1) (y0 : 0 ≤ y) (y1 : y ≤ 1) (hk : 1 ≤ k) : |x ^ k - y ^ k| ≤ k * |x - y| := by
  have key : ∀ {x y : ℝ}, 0 ≤ y → y ≤ x → x ≤ 1 → x ^ k - y ^ k ≤ k * (x - y) := by
    intro x y y0 h x1
    rcases (y0.trans h).eq_or_lt with rfl | x0
    · rw [le_antisymm h y0]; simp
    have hb := one_add_mul_self_le_rpow_one_add (s := y / x - 1) (by have := div_nonneg y0 x0.le; linarith) hk
    rw [add_sub_cancel, Real.div_rpow y0 x0.le, le_div_iff₀ (Real.rpow_pos_of_pos x0 k)] at hb
    have hx : x ^ k ≤ x := by
      have := Real.rpow_le_rpow_of_exponent_ge x0 x1 hk; rwa [Real.rpow_one] at this
    have e : (1 + k * (y / x - 1)) * x ^ k = x ^ k - k * (x - y) * (x ^ k / x) := by field_simp; ring
    have q : x ^ k / x ≤ 1 := (div_le_one x0).2 hx
    have : k * (x - y) * (x ^ k / x) ≤ k * (x - y) := mul_le_of_le_one_right (mul_nonneg (by linarith) (by linarith)) q
    linarith
  rcases le_total y x with h | h
  · rw [abs_of_nonneg (sub_nonneg.2 (Real.rpow_le_rpow y0 h (by linarith))), abs_of_nonneg (sub_nonneg.2 h)]; exact key y0 h x1
  · rw [abs_sub_comm, abs_sub_comm x, abs_of_nonneg (sub_nonneg.2 (Real.rpow_le_rpow x0 h (by linarith))), abs_of_nonneg (sub_nonneg.2 h)]
    exact key x0 h y1

/-- a power with exponent at most 1 is Hölder -/
theorem rpow_holder {x y k : ℝ} (x0 : 0 ≤ x) (y0 : 0 ≤ y) (hk : 0 < k) (hk1 : k ≤ 1) : |x ^ k - y ^ k| ≤ |x - y| ^ k := by
  have key : ∀ {x y : ℝ}, 0 ≤ y → y ≤ x → x ^ k - y ^ k ≤ (x - y) ^ k := by
    intro x y y0 h
    have := NNReal.rpow_add_le_add_rpow ⟨x - y, sub_nonneg.2 h⟩ ⟨y, y0⟩ hk.le hk1
    have h2 : (x - y + y) ^ k ≤ (x - y) ^ k + y ^ k := by exact_mod_cast this
    rw [sub_add_cancel] at h2; linarith
  rcases le_total y x with h | h
  · rw [abs_of_nonneg (sub_nonneg.2 (Real.rpow_le_rpow y0 h hk.le)), abs_of_nonneg (sub_nonneg.2 h)]; exact key y0 h
  · rw [abs_sub_comm, abs_sub_comm x, abs_of_nonneg (sub_nonneg.2 (Real.rpow_le_rpow x0 h hk.le)), abs_of_nonneg (sub_nonneg.2 h)]
    exact key x0 h

section
variable [FP] [FP.Lawful] [FP.Libm] [FP.Accurate]

/-- a power of a number in the unit interval -/
theorem unit_pow {a e : F64} {r s : ℝ} (ha : a.Is r) (he : e.Is s) (r0 : 0 ≤ r) (r1 : r ≤ 1) (hs : 0 < s) :
    ∃ P, (a.powf e).Is P ∧ 0 ≤ P ∧ P ≤ 1 ∧ |P - r ^ s| ≤ 1 / 2 ^ 51 + 1 / 2 ^ 120 := by
  have a0 : (0 : F64) ≤ a := (Is.zero.le_iff ha).2 r0
  have a1 : a ≤ 1 := (ha.le_iff Is.one).2 r1
  have e0 : (0 : F64) ≤ e := (Is.zero.le_iff he).2 hs.le
  have p0 := powf_nn_of a0 e0
  have p1 := powf_le1_of a0 a1 e0
  obtain ⟨P, hP, P0, P1⟩ := prob_cases p0 p1
  refine ⟨P, hP, P0, P1, ?_⟩
  rcases r0.eq_or_lt with rfl | r0
  · have hz : (a.powf e).Is 0 := by
      rw [he.eq_fin hs.ne']
      rcases ha with rfl | ⟨rfl, _⟩ <;> simp only [F64.powf] <;> simp [hs, hs.ne'] <;> exact szero_is _
    rw [hP.eq hz, Real.zero_rpow hs.ne', sub_zero, abs_zero]; positivity
  · have q1 : r ^ s ≤ 1 := Real.rpow_le_one r0.le r1 hs.le
    rcases pow_at ha he r0 hs.ne' with ⟨P', hP', _, hP2⟩ | ⟨_, hbig⟩
    · rw [hP.eq hP']; refine hP2.trans ?_; gcongr
    · have : (1:ℝ) < 2 ^ 1021 := one_lt_pow₀ (by norm_num) (by norm_num)
      exact absurd (hbig.trans q1) (not_le.2 this)

theorem unit_compl {a : F64} {u v ε : ℝ} (ha : a.Is u) (u0 : 0 ≤ u) (u1 : u ≤ 1) (v0 : 0 ≤ v) (v1 : v ≤ 1) (h : |u - v| ≤ ε) (hε : ε ≤ 1) :
    ∃ c, (1 - a).Is c ∧ 0 ≤ c ∧ c ≤ 1 ∧ |c - (1 - v)| ≤ ε + 1 / 2 ^ 51 := by
  obtain ⟨c0, c1⟩ := one_sub_unit ((Is.zero.le_iff ha).2 u0) ((ha.le_iff Is.one).2 u1)
  obtain ⟨c, hc, c0, c1⟩ := prob_cases c0 c1
  refine ⟨c, hc, c0, c1, ?_⟩
  have hw := Within.sub (ρ := ε + 1 / 2 ^ 51) 1 (Within.exact Is.one) ⟨u, ha, h⟩ (by rw [abs_le]; constructor <;> linarith)
    (by norm_num; linarith) (by norm_num; linarith)
  obtain ⟨c', hc', he⟩ := hw
  rwa [hc.eq hc']

/-- C266 (part): the Kumaraswamy distribution function with second shape `b >= 1` is within `(b + 1) 2^-49` of the real one at every f64 in `[0, 1]`.
For `b < 1` it is not: see `C266_kumaraswamy_violated` and `C266_kumaraswamy_small_partial` -/
theorem C266_kumaraswamy_partial {a b : F64} {p q : ℝ} {d : Kumaraswamy} (h : Kumaraswamy.new a b = .ok d) (ha : a.Is p) (hb : b.Is q) (hq : 1 ≤ q) :
    AccurateCDF d.cdf (kumaraswamyCDF p q) (Set.Icc 0 1) ((q + 1) / 2 ^ 49) := by
  obtain ⟨h0, h1, rfl⟩ := Kumaraswamy.new_ok.1 h
  have hp := pos_of_lt h0 ha
  rintro x r _ hx ⟨r0, r1⟩
  obtain ⟨P, hP, P0, P1, Pe⟩ := unit_pow hx ha r0 r1 hp
  have u0 : 0 ≤ r ^ p := Real.rpow_nonneg r0 p
  have u1 : r ^ p ≤ 1 := Real.rpow_le_one r0 r1 hp.le
  obtain ⟨c, hc, c0, c1, ce⟩ := unit_compl hP P0 P1 u0 u1 Pe (by norm_num)
  obtain ⟨Q, hQ, Q0, Q1, Qe⟩ := unit_pow hc hb c0 c1 (by linarith)
  have lip := rpow_lip c0 c1 (sub_nonneg.2 u1) (by linarith) hq
  have v0 : 0 ≤ (1 - r ^ p) ^ q := Real.rpow_nonneg (sub_nonneg.2 u1) q
  have v1 : (1 - r ^ p) ^ q ≤ 1 := Real.rpow_le_one (sub_nonneg.2 u1) (by linarith) (by linarith)
  have w0 : 0 ≤ c ^ q := Real.rpow_nonneg c0 q
  have w1 : c ^ q ≤ 1 := Real.rpow_le_one c0 c1 (by linarith)
  obtain ⟨z, hz, z0, z1, ze⟩ := unit_compl hQ Q0 Q1 w0 w1 Qe (by norm_num)
  refine ⟨z, hz, ?_⟩
  have e : kumaraswamyCDF p q r = 1 - (1 - r ^ p) ^ q := by
    unfold kumaraswamyCDF; rw [if_neg (not_lt.2 r0)]
    split_ifs with h
    · rw [le_antisymm r1 h, Real.one_rpow, sub_self, Real.zero_rpow (by linarith), sub_zero]
    · rfl
  rw [e]
  have t := abs_sub_le z (1 - c ^ q) (1 - (1 - r ^ p) ^ q)
  rw [sub_sub_sub_cancel_left, abs_sub_comm ((1 - r ^ p) ^ q)] at t
  have l2 : q * |c - (1 - r ^ p)| ≤ q * (1 / 2 ^ 51 + 1 / 2 ^ 120 + 1 / 2 ^ 51) := by gcongr
  have n : q * (1 / 2 ^ 51 + 1 / 2 ^ 120 + 1 / 2 ^ 51) + (1 / 2 ^ 51 + 1 / 2 ^ 120 + 1 / 2 ^ 51) ≤ (q + 1) / 2 ^ 49 := by
    norm_num; linarith
  linarith only [t, ze, lip, l2, n]

/-- C266 (part): for `b <= 1` the error of the Kumaraswamy distribution function is at most `2^(-49 b) + 2^-49` -/
theorem C266_kumaraswamy_small_partial {a b : F64} {p q : ℝ} {d : Kumaraswamy} (h : Kumaraswamy.new a b = .ok d) (ha : a.Is p) (hb : b.Is q) (hq : q ≤ 1) :
    AccurateCDF d.cdf (kumaraswamyCDF p q) (Set.Icc 0 1) ((1 / 2 ^ 49) ^ q + 1 / 2 ^ 49) := by
  obtain ⟨h0, h1, rfl⟩ := Kumaraswamy.new_ok.1 h
  have hp := pos_of_lt h0 ha
  have hq0 := pos_of_lt h1 hb
  rintro x r _ hx ⟨r0, r1⟩
  obtain ⟨P, hP, P0, P1, Pe⟩ := unit_pow hx ha r0 r1 hp
  have u0 : 0 ≤ r ^ p := Real.rpow_nonneg r0 p
  have u1 : r ^ p ≤ 1 := Real.rpow_le_one r0 r1 hp.le
  obtain ⟨c, hc, c0, c1, ce⟩ := unit_compl hP P0 P1 u0 u1 Pe (by norm_num)
  obtain ⟨Q, hQ, Q0, Q1, Qe⟩ := unit_pow hc hb c0 c1 hq0
  have lip := rpow_holder c0 (sub_nonneg.2 u1) hq0 hq
  have w0 : 0 ≤ c ^ q := Real.rpow_nonneg c0 q
  have w1 : c ^ q ≤ 1 := Real.rpow_le_one c0 c1 hq0.le
  obtain ⟨z, hz, z0, z1, ze⟩ := unit_compl hQ Q0 Q1 w0 w1 Qe (by norm_num)
  refine ⟨z, hz, ?_⟩
  have e : kumaraswamyCDF p q r = 1 - (1 - r ^ p) ^ q := by
    unfold kumaraswamyCDF; rw [if_neg (not_lt.2 r0)]
    split_ifs with h
    · rw [le_antisymm r1 h, Real.one_rpow, sub_self, Real.zero_rpow hq0.ne', sub_zero]
    · rfl
  rw [e]
  have t := abs_sub_le z (1 - c ^ q) (1 - (1 - r ^ p) ^ q)
  rw [sub_sub_sub_cancel_left, abs_sub_comm ((1 - r ^ p) ^ q)] at t
  have l2 : |c - (1 - r ^ p)| ^ q ≤ (1 / 2 ^ 49) ^ q :=
    Real.rpow_le_rpow (abs_nonneg _) (ce.trans (by norm_num)) hq0.le
  have n : (1:ℝ) / 2 ^ 51 + 1 / 2 ^ 120 + 1 / 2 ^ 51 ≤ 1 / 2 ^ 49 := by norm_num
  linarith only [t, ze, lip, l2, n]

end

section
open B64
attribute [local instance] binary64 binary64_lawful B64.libm B64.specialFns B64.accurate

/-- just below 1 everything rounds to 1 -/
theorem rnd_near_one {p : ℝ} (h0 : 1 - 1 / 2 ^ 55 ≤ p) (h1 : p < 1) : B64.rnd p = 1 := by
  have := B64.rnd_eq (x := p) (2 ^ 53) (-53) (by norm_num) (by norm_num at *; linarith) (by norm_num; exact h1) (by
    rw [abs_of_nonpos (by push_cast; norm_num at *; linarith)]; push_cast; norm_num at *; linarith)
  rw [this]; norm_num

/-- C266 (violation): a Kumaraswamy law with shapes 2^-60 and 2^-10 has its distribution function at 1/2 equal to 1, because `1 - x^a` cancels
to zero; the real one is below 1/10 -/
theorem C266_kumaraswamy_violated : ∃ d, Kumaraswamy.new (fin (1 / 2 ^ 60)) (fin (1 / 2 ^ 10)) = .ok d ∧ IsF64 (fin (1 / 2 ^ 60)) ∧
    IsF64 (fin (1 / 2 ^ 10)) ∧ ¬ AccurateCDF d.cdf (kumaraswamyCDF (1 / 2 ^ 60) (1 / 2 ^ 10)) (Set.Icc 0 1) (9 / 10) := by
  refine ⟨_, Kumaraswamy.new_ok.2 ⟨lt_of_pos (by positivity) (Is.fin _), lt_of_pos (by positivity) (Is.fin _), rfl⟩, isF64_pow_inv _ (by norm_num),
    isF64_pow_inv _ (by norm_num), fun H => ?_⟩
  obtain ⟨p, hp, he⟩ := H (fin (1 / 2)) (1 / 2) (by have := isF64_pow_inv 1 (by norm_num); rwa [pow_one] at this) (Is.fin _) ⟨by norm_num, by norm_num⟩
  have e1 : ((1 : F64) - (1 - (fin (1 / 2)).powf (fin (1 / 2 ^ 60))).powf (fin (1 / 2 ^ 10))).Is p := hp
  have l2 := Real.log_two_lt_d9
  have l1 := Real.log_two_gt_d9
  obtain ⟨t, ht⟩ : ∃ t, t = Real.log 2 / 2 ^ 60 := ⟨_, rfl⟩
  have t0 : 0 < t := by rw [ht]; exact div_pos (by linarith only [l1]) (by positivity)
  have t1 : t ≤ 1 / 2 ^ 55 := by rw [ht]; norm_num; linarith
  have t2 : 1 / 2 ^ 62 ≤ t / 2 := by rw [ht]; norm_num; linarith
  obtain ⟨w, hw⟩ : ∃ w, w = ((1:ℝ) / 2) ^ ((1:ℝ) / 2 ^ 60) := ⟨_, rfl⟩
  have ew : w = Real.exp (-t) := by
    rw [hw, ht, Real.rpow_def_of_pos (by norm_num), Real.log_div one_ne_zero two_ne_zero, Real.log_one]; congr 1; ring
  have w1 : w < 1 := by rw [ew, Real.exp_lt_one_iff]; linarith only [t0]
  have w0 : 1 - 1 / 2 ^ 55 ≤ w := by
    rw [ew]
    have := Real.add_one_le_exp (-t)
    linarith only [this, t1]
  have w2 : w ≤ 1 - t / 2 := by
    have h1 := Real.add_one_le_exp t
    have h2 : w * Real.exp t = 1 := by rw [ew, ← Real.exp_add, neg_add_cancel, Real.exp_zero]
    have w00 : 0 < w := by rw [ew]; exact Real.exp_pos _
    have ht1 : t ≤ 1 := t1.trans (by norm_num)
    clear hw he H
    nlinarith only [h1, h2, w00, ht1, t0]
  have hP : ((fin (1 / 2)).powf (fin (1 / 2 ^ 60))).Is 1 := by
    rw [powf_pos_ext (Is.fin _) (Is.fin _) (by norm_num) (by positivity)]
    show (F64.round (((1:ℝ) / 2) ^ ((1:ℝ) / 2 ^ 60))).Is 1
    rw [← hw, round_eq (rnd_near_one w0 w1) (by norm_num) one_ne_zero]; exact Is.fin 1
  have hc : ((1 : F64) - (fin (1 / 2)).powf (fin (1 / 2 ^ 60))).Is 0 := by
    have := sub_is Is.one hP (by rw [sub_self, F64.rnd_zero]; exact not_huge_small (by norm_num))
    rwa [sub_self, F64.rnd_zero] at this
  have h0 := powf_zero_pos hc (Is.fin ((1:ℝ) / 2 ^ 10)) (by positivity)
  have e2 : ((1 : F64) - (1 - (fin (1 / 2)).powf (fin (1 / 2 ^ 60))).powf (fin (1 / 2 ^ 10))).Is 1 := by
    have := sub_is Is.one h0 (by rw [sub_zero, F64.rnd_one]; exact not_huge_one)
    rwa [sub_zero, F64.rnd_one] at this
  rw [e1.eq e2] at he
  unfold kumaraswamyCDF at he
  rw [if_neg (by norm_num), if_neg (by norm_num), sub_sub_cancel, ← hw] at he
  have h4 : (1 / 2 ^ 62) ^ ((1:ℝ) / 2 ^ 10) ≤ (1 - w) ^ ((1:ℝ) / 2 ^ 10) :=
    Real.rpow_le_rpow (by positivity) (by linarith only [w2, t2]) (by positivity)
  have h3 : (9:ℝ) / 10 < (1 / 2 ^ 62) ^ ((1:ℝ) / 2 ^ 10) := by
    have this : ((9:ℝ) / 10) ^ (1024:ℕ) < 1 / 2 ^ 62 := by
      rw [show (1024:ℕ) = 64 * 16 by norm_num, pow_mul]
      have h6 : ((9:ℝ) / 10) ^ 64 ≤ 1 / 2 ^ 9 := by norm_num
      exact (pow_le_pow_left₀ (by positivity) h6 16).trans_lt (by norm_num)
    have h4 := Real.rpow_lt_rpow (by positivity) this (show (0:ℝ) < 1 / 2 ^ 10 by positivity)
    rwa [← Real.rpow_natCast, ← Real.rpow_mul (by norm_num), show ((1024:ℕ):ℝ) * (1 / 2 ^ 10) = 1 by norm_num, Real.rpow_one] at h4
  have h5 := (le_abs_self _).trans he
  exact absurd (h3.trans_le (h4.trans h5)) (lt_irrefl _)
end
end Rstat
