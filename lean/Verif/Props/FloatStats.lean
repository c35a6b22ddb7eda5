import Verif.Lemmas.FloatSign
import Verif.Lemmas.B64Eval
import Verif.Props.Dist.Arcsine
import Verif.Props.Dist.Cosine
import Verif.Props.Dist.Exponential
import Verif.Props.Dist.Gamma
import Verif.Props.Dist.Erlang
import Verif.Props.Dist.Gumbel
import Verif.Props.Dist.Laplace
import Verif.Props.Dist.Logistic
import Verif.Props.Dist.Uniform
import Verif.Props.Dist.Rayleigh
import Verif.Props.Dist.Poisson
import Verif.Props.Dist.Bernoulli
import Verif.Props.Dist.Binomial
import Verif.Props.Dist.Geometric
import Verif.Props.Dist.InvNormal
import Verif.Props.Dist.BetaBinomial
import Verif.Props.Dist.Chi
import Verif.Props.Normal2
import Verif.Props.Dist.BetaPrime
import Verif.Props.Dist.StudentT
import Verif.Props.Dist.FDist
import Verif.Props.Dist.Pareto

/-! C235: variances in rounded arithmetic.  `[FP.Lawful]` = correctly rounded `+ - * /` with overflow and underflow. Parameters
range over every finite f64 accepted by the constructor, subnormal and huge ones included. -/
set_option linter.unusedSectionVars false
namespace Rstat
open F64 Spec Consts

section
variable [FP] [FP.Lawful]

theorem num_fin {x : F64} {r : ℝ} (h : x.Is r) (h0 : 0 < r) : x = fin r := h.eq_fin h0.ne'

/-- C235 (location-scale families): `variance()` is a non-negative number, never NaN (`0 ≤ v` excludes NaN). Missing: the families of
`C235_float_variance_violated`. -/
theorem C235_float_variance_locscale_partial {a b : F64} (hb : b.isFinite) :
    (∀ d, Arcsine.new a b = .ok d → (0 : F64) ≤ d.variance) ∧ (∀ d, Cosine.new a b = .ok d → (0 : F64) ≤ d.variance) ∧
    (∀ d, Gumbel.new a b = .ok d → (0 : F64) ≤ d.variance) ∧ (∀ d, Laplace.new a b = .ok d → (0 : F64) ≤ d.variance) ∧
    (∀ d, Logistic.new a b = .ok d → (0 : F64) ≤ d.variance) ∧ (∀ d, UniformF.new a b = .ok d → (0 : F64) ≤ d.variance) ∧
    (∀ d, UvNormal.new a b = .ok d → (0 : F64) ≤ d.variance) ∧ (∀ d, Rayleigh.new b = .ok d → (0 : F64) ≤ d.variance) := by
  obtain ⟨p, hp, hp0, _⟩ := (pi2_btw).pos (by norm_num)
  have e8 := num_fin (Is.num 8) (by norm_num)
  have e6 := num_fin (Is.num 6) (by norm_num)
  have e3 := num_fin (Is.num 3) (by norm_num)
  have e2 := num_fin (Is.num 2) (by norm_num)
  have e12 := num_fin (Is.num 12) (by norm_num)
  refine ⟨fun d h => ?_, fun d h => ?_, fun d h => ?_, fun d h => ?_, fun d h => ?_, fun d h => ?_, fun d h => ?_, fun d h => ?_⟩
  · obtain ⟨h0, rfl⟩ := Arcsine.new_ok.1 h
    obtain ⟨s, rfl, hs⟩ := fin_pos h0 hb
    unfold Arcsine.variance; rw [e8]
    exact nn_div (by norm_num) (fin_sq_nn s)
  · obtain ⟨h0, rfl⟩ := Cosine.new_ok.1 h
    obtain ⟨s, rfl, hs⟩ := fin_pos h0 hb
    have hc : Btw (1 / 16) 1 (ONE_THIRD - TWO_OVER_PI2) := by
      have h2 : Btw 0 (1 / 4) TWO_OVER_PI2 := (Btw.num (Is.num 2)).div pi2_btw (by norm_num) (keep 0 0) (keep 1 2) fun r t a b c d => by
        have : r = 2 := le_antisymm b a
        subst r
        constructor
        · positivity
        · rw [div_le_iff₀ (by linarith)]; linarith
      exact third_btw.sub h2 (keep 1 4) (keep 1 0) fun r t a b c d => by constructor <;> linarith
    obtain ⟨c, hc, hc0, _⟩ := hc.pos (by norm_num)
    unfold Cosine.variance; rw [hc]
    exact nn_mul hc0 (fin_sq_nn s)
  · obtain ⟨h0, rfl⟩ := Gumbel.new_ok.1 h
    obtain ⟨s, rfl, hs⟩ := fin_pos h0 hb
    unfold Gumbel.variance; rw [hp, e6]
    exact nn_div (by norm_num) (nn_mul hs (nn_mul hs (nn_fin hp0.le)))
  · obtain ⟨h0, rfl⟩ := Laplace.new_ok.1 h
    obtain ⟨s, rfl, hs⟩ := fin_pos h0 hb
    unfold Laplace.variance; rw [e2]
    exact nn_mul hs (nn_mul hs (nn_fin (by norm_num)))
  · obtain ⟨h0, rfl⟩ := Logistic.new_ok.1 h
    obtain ⟨s, rfl, hs⟩ := fin_pos h0 hb
    unfold Logistic.variance; rw [e3, hp]
    exact nn_div (by norm_num) (nn_mul hp0 (fin_sq_nn s))
  · obtain ⟨h0, rfl⟩ := UniformF.new_ok.1 h
    obtain ⟨s, rfl, hs⟩ := fin_pos h0 hb
    unfold UniformF.variance; rw [e12]
    exact nn_div (by norm_num) (fin_sq_nn s)
  · obtain ⟨h0, rfl⟩ := UvNormal.new_ok.1 h
    exact le_of_lt' h0
  · obtain ⟨h0, rfl⟩ := Rayleigh.new_ok.1 h
    obtain ⟨s, rfl, hs⟩ := fin_pos h0 hb
    have hc : Btw (1 / 4) 1 Rayleigh.FOUR_MINUS_PI_OVER_2 := by
      have h1 : Btw (1 / 2) 1 Rayleigh.FOUR_MINUS_PI := (Btw.num (Is.num 4)).sub pi_btw' (keep 1 1) (keep 1 0) fun r t a b c d => by
        have : r = 4 := le_antisymm b a
        subst r; constructor <;> linarith
      exact h1.div (Btw.num (Is.num 2)) (by norm_num) (keep 1 2) (keep 1 0) fun r t a b c d => by
        have : t = 2 := le_antisymm d c
        subst t; constructor <;> linarith
    obtain ⟨c, hc, hc0, _⟩ := hc.pos (by norm_num)
    unfold Rayleigh.variance; rw [hc]
    exact nn_mul hs (nn_mul hs (nn_fin hc0.le))

/-- C235 (shape and rate families): as above. -/
theorem C235_float_variance_shape_partial {a b : F64} (ha : a.isFinite) (hb : b.isFinite) :
    (∀ d, Exponential.new a = .ok d → (0 : F64) ≤ d.variance) ∧ (∀ d, Gamma.new a b = .ok d → (0 : F64) ≤ d.variance) ∧
    (∀ k, k < 2 ^ 64 → ∀ d, Erlang.new k b = .ok d → (0 : F64) ≤ d.variance) ∧ (∀ d, Poisson.new a = .ok d → (0 : F64) ≤ d.variance) ∧
    (∀ d, InvNormal.new a b = .ok d → (0 : F64) ≤ d.variance) ∧
    (∀ (pr : Profile) k, 2 * k < 2 ^ 64 → ∀ d, ChiSq.new k = .ok d → ∃ v, d.variance pr = .ok v ∧ (0 : F64) ≤ v) := by
  refine ⟨fun d h => ?_, fun d h => ?_, fun k hk d h => ?_, fun d h => ?_, fun d h => ?_, fun pr k hk d h => ?_⟩
  · obtain ⟨h0, rfl⟩ := Exponential.new_ok.1 h
    obtain ⟨s, rfl, hs⟩ := fin_pos h0 ha
    exact nn_div hs (nn_div hs (nn_is Is.one zero_le_one))
  · obtain ⟨h0, h1, rfl⟩ := Gamma.new_ok.1 h
    obtain ⟨s, rfl, hs⟩ := fin_pos h1 hb
    exact nn_div hs (nn_div hs (le_of_lt' h0))
  · obtain ⟨_, h1, rfl⟩ := Erlang.new_ok.1 h
    obtain ⟨s, rfl, hs⟩ := fin_pos h1 hb
    exact nn_div hs (nn_div hs (ofNat_nn hk))
  · obtain ⟨h0, rfl⟩ := Poisson.new_ok.1 h
    exact le_of_lt' h0
  · obtain ⟨h0, h1, rfl⟩ := InvNormal.new_ok.1 h
    obtain ⟨s, rfl, hs⟩ := fin_pos h0 ha
    obtain ⟨t, rfl, ht⟩ := fin_pos h1 hb
    exact nn_div ht (nn_mul hs (fin_sq_nn s))
  · obtain ⟨h0, rfl⟩ := ChiSq.new_ok.1 h
    refine ⟨F64.ofNat (2 * k), ?_, ofNat_nn hk⟩
    unfold ChiSq.variance umul
    rw [if_pos (by unfold U64; exact hk)]
    rfl

theorem prob_cases {p : F64} (h0 : 0 ≤ p) (h1 : p ≤ 1) : ∃ r, p.Is r ∧ 0 ≤ r ∧ r ≤ 1 := by
  rcases nonneg_cases h0 with rfl | ⟨r, hr, h⟩
  · exact absurd h1 (not_pinf_le Is.one)
  · exact ⟨r, hr, h, (hr.le_iff Is.one).1 h1⟩
theorem not_prob {p : F64} {r : ℝ} (hr : p.Is r) (h0 : 0 ≤ r) (h1 : r ≤ 1) : ∃ s, (1 - p).Is s ∧ 0 ≤ s ∧ s ≤ 1 :=
  (Btw.num Is.one).sub (Btw.num hr) (keep 0 0) (keep 1 0) fun x y a b c d => by
    constructor <;> linarith
theorem is_mul_nn {x y : F64} {r s : ℝ} (hx : x.Is r) (hy : y.Is s) (h1 : 0 ≤ r) (h2 : 0 ≤ s) : (0 : F64) ≤ x * y :=
  le_congr rfl (mul_fin_ext hx hy).symm (round_nonneg (mul_nonneg h1 h2))

/-- the success probability and the overdispersion of a beta-binomial law are in `[0, 1]` -/
theorem bb_pi_rho {n : ℕ} {r s : ℝ} (hr : 0 < r) (hs : 0 < s) (k : Keep r) :
    Btw 0 1 (BetaBinomial.fromParams n (fin r) (fin s)).pi ∧ Btw 0 1 (BetaBinomial.fromParams n (fin r) (fin s)).rho := by
  unfold BetaBinomial.fromParams
  dsimp only
  have hle : fin r ≤ fin r + fin s := le_add_self_of ⟨Is.fin r, k⟩ (nn_fin hs.le)
  have h1 : (1 : F64) ≤ fin r + fin s + 1 := by
    have := add_const_mono Is.one (le_trans' (nn_fin hr.le) hle)
    refine le_trans' ?_ this
    have e := add_ext Is.zero Is.one
    rw [zero_add, round_one] at e
    exact le_congr (num_fin Is.one one_pos ▸ rfl) e.symm (le_rfl' (a := fin 1) (by simp))
  constructor
  · rcases pos_cases (lt_of_lt_of_le' (lt_of_pos hr (Is.fin r)) hle) with h | ⟨t, h, t0⟩
    · rw [h]; exact ⟨0, const_div_pinf (Is.fin r), le_rfl, zero_le_one⟩
    · rw [h] at hle ⊢
      have hrt : r ≤ t := fin_le_fin.1 hle
      exact (Btw.num (Is.fin r)).div (Btw.num (Is.fin t)) t0 (keep 0 0) (keep 1 0) fun x y a b c d => by
        have : x = r := le_antisymm b a
        have : y = t := le_antisymm d c
        subst x y
        exact ⟨by positivity, (div_le_one t0).2 hrt⟩
  · rcases pos_cases (lt_of_lt_of_le' (lt_of_pos one_pos Is.one) h1) with h | ⟨t, h, t0⟩
    · rw [h]; exact ⟨0, const_div_pinf Is.one, le_rfl, zero_le_one⟩
    · rw [h] at h1 ⊢
      have hrt : 1 ≤ t := (Is.one.le_iff (Is.fin t)).1 h1
      exact (Btw.num Is.one).div (Btw.num (Is.fin t)) t0 (keep 0 0) (keep 1 0) fun x y a b c d => by
        have : x = 1 := le_antisymm b a
        have : y = t := le_antisymm d c
        subst x y
        exact ⟨by positivity, (div_le_one t0).2 hrt⟩

/-- C235 (discrete families): as above. -/
theorem C235_float_variance_discrete_partial {p : F64} :
    (∀ d, Bernoulli.new p = .ok d → (0 : F64) ≤ d.variance) ∧
    (∀ n P, n < 2 ^ 64 → ∀ d, Binomial.new n P = .ok d → (0 : F64) ≤ d.variance) ∧
    (∀ d, Geometric.new p = .ok d → (0 : F64) ≤ d.variance) ∧
    (∀ (n : ℕ) (a b : F64), n ≤ 2 ^ 52 → (∃ r, a.Rep r) → b.isFinite → ∀ d, BetaBinomial.new n a b = .ok d → (0 : F64) ≤ d.variance) := by
  refine ⟨fun d h => ?_, fun n P hn d h => ?_, fun d h => ?_, fun n a b hn ha hb d h => ?_⟩
  · obtain ⟨⟨h0, h1⟩, rfl⟩ := Bernoulli.new_ok.1 h
    obtain ⟨r, hr, a, b⟩ := prob_cases h0 h1
    obtain ⟨s, hs, c, d⟩ := not_prob hr a b
    exact is_mul_nn hr hs a c
  · obtain ⟨⟨h0, h1⟩, rfl⟩ := Binomial.new_ok.1 h
    obtain ⟨r, hr, a, b⟩ := prob_cases h0 h1
    obtain ⟨s, hs, c, d⟩ := not_prob hr a b
    obtain ⟨t, ht, e, _⟩ := ofNat_fin hn
    obtain ⟨u, hu, f, _⟩ : Btw 0 1 (P.val * (1 - P.val)) := (show Btw 0 1 P.val from ⟨r, hr, a, b⟩).mul
      (show Btw 0 1 (1 - P.val) from ⟨s, hs, c, d⟩) (keep 0 0) (keep 1 0) fun x y a b c d => ⟨mul_nonneg a c, by nlinarith⟩
    exact is_mul_nn hu ht f e
  · obtain ⟨⟨h0, h1⟩, rfl⟩ := Geometric.new_ok.1 h
    obtain ⟨r, hr, a, b⟩ := prob_cases h0 h1
    obtain ⟨s, hs, c, d⟩ := not_prob hr a b
    rcases a.eq_or_lt with h | r0
    · subst h
      have e : (1 - p).Is 1 := by
        have e := add_ext Is.one hr.neg
        rw [neg_zero, add_zero, round_one] at e
        exact (Is.fin 1).of_ext e.symm
      unfold Geometric.variance
      dsimp only
      rw [e.eq_fin one_ne_zero]
      rcases hr with rfl | ⟨rfl, _⟩ <;> simp [HDiv.hDiv, Div.div, F64.div, F64.sinf] <;> exact le_pinf Is.zero
    have e := hr.eq_fin r0.ne'
    subst e
    exact nn_div r0 (nn_div r0 (nn_is hs c))
  · obtain ⟨h0, h1, rfl⟩ := BetaBinomial.new_ok.1 h
    obtain ⟨s, rfl, hs⟩ := fin_pos h1 hb
    obtain ⟨r, hr, kr, kh⟩ := ha
    have r0 : 0 < r := pos_of_lt h0 hr
    have e := hr.eq_fin r0.ne'
    subst e
    obtain ⟨hpi, hrho⟩ := bb_pi_rho (s := s) r0 hs ⟨kr, kh⟩
    obtain ⟨t, ht, t0, t1⟩ : Btw 0 (2 ^ 52) (F64.ofNat n) := by
      have h2 : (n:ℝ) ≤ 2 ^ 52 := by exact_mod_cast hn
      exact round_btw (keep 0 0) (keep (2 ^ 52) 0) (Nat.cast_nonneg n) h2
    have ht : Btw 0 (2 ^ 52) (F64.ofNat n) := ⟨t, ht, t0, t1⟩
    have hm : Btw (-1) (2 ^ 52) (F64.ofNat n - 1) := ht.sub (Btw.num Is.one) (keep (-1) 0) (keep (2 ^ 52) 0) fun x y a b c d => by
      constructor <;> linarith
    have hq : Btw (-1) (2 ^ 52) ((F64.ofNat n - 1) * (BetaBinomial.fromParams n (fin r) (fin s)).rho) :=
      hm.mul hrho (keep (-1) 0) (keep (2 ^ 52) 0) fun x y a b c d => by constructor <;> nlinarith
    obtain ⟨u, hu, u0, _⟩ : Btw 0 (2 ^ 53) (1 + (F64.ofNat n - 1) * (BetaBinomial.fromParams n (fin r) (fin s)).rho) :=
      (Btw.num Is.one).add hq (keep 0 0) (keep (2 ^ 53) 0) fun x y a b c d => by constructor <;> linarith
    have h1 : Btw 0 (2 ^ 52) (F64.ofNat n * (BetaBinomial.fromParams n (fin r) (fin s)).pi) :=
      ht.mul hpi (keep 0 0) (keep (2 ^ 52) 0) fun x y a b c d => ⟨mul_nonneg a c, by nlinarith⟩
    have h2 : Btw 0 1 (1 - (BetaBinomial.fromParams n (fin r) (fin s)).pi) := (Btw.num Is.one).sub hpi (keep 0 0) (keep 1 0)
      fun x y a b c d => by constructor <;> linarith
    obtain ⟨v, hv, v0, _⟩ : Btw 0 (2 ^ 52) _ := h1.mul h2 (keep 0 0) (keep (2 ^ 52) 0) fun x y a b c d => ⟨mul_nonneg a c, by nlinarith⟩
    exact is_mul_nn hv hu v0 u0
end

section
open B64
attribute [local instance] binary64 binary64_lawful

theorem keep_b64 {r : ℝ} (h : rnd r = r) (hr : |r| < 2 ^ 1024) : Keep r := ⟨h, not_le.2 hr⟩
theorem gt_of_repr {r : ℝ} (h : rnd r = r) (h0 : 2 < r) : 2 + 1 / 2 ^ 51 ≤ r := by
  by_contra hc
  push Not at hc
  have hu : ulpExp r = -51 := ulpExp_eq (-51) (by norm_num) (by norm_num; linarith) (by norm_num; linarith)
  have hr : (rne (r / 2 ^ (-51:ℤ)) : ℝ) * 2 ^ (-51:ℤ) = r := by
    have := h; unfold rnd at this; rwa [hu] at this
  generalize rne (r / 2 ^ (-51:ℤ)) = m at hr
  have e : (2:ℝ) ^ (-51:ℤ) = 1 / 2 ^ 51 := by rw [zpow_neg]; norm_num
  rw [e] at hr
  have h1 : (2:ℝ) ^ 52 < m := by
    rw [← hr] at h0
    rw [mul_one_div, lt_div_iff₀ (by positivity)] at h0
    linarith
  have h2 : (2:ℤ) ^ 52 + 1 ≤ m := by exact_mod_cast h1
  have h3 : ((2:ℝ) ^ 52 + 1) ≤ m := by exact_mod_cast h2
  have : (2 ^ 52 + 1) * (1 / 2 ^ 51 : ℝ) ≤ r := by rw [← hr]; exact mul_le_mul_of_nonneg_right h3 (by positivity)
  norm_num at this hc
  linarith
/-- the two differences occurring in second moments -/
theorem shape_subs {r : ℝ} (h : Keep r) (h2 : 2 < r) :
    (∃ s, fin r - 1 = fin s ∧ 1 ≤ s ∧ s ≤ r) ∧ (∃ s, fin r - 2 = fin s ∧ 0 < s ∧ s ≤ r) := by
  constructor
  · exact sub_pos_fin Is.one (keep 1 0) (by linarith) (by norm_num) one_pos h
  · obtain ⟨s, h1, h3, h4⟩ := sub_pos_fin (c := 1 / 2 ^ 51) (Is.num 2) (keep 1 51) (gt_of_repr h.1 h2) (by norm_num) (by positivity) h
    exact ⟨s, h1, lt_of_lt_of_le (by positivity) h3, h4⟩

/-- C235 (families whose variance exists above a threshold, binary64): as above, whenever a value is returned. -/
theorem C235_float_variance_threshold_partial {a b : F64} {r s : ℝ} (ha : a.Rep r) (hb : b.Rep s) :
    (∀ d, BetaPrime.new a b = .ok d → ∀ v, d.variance = .ok v → (0 : F64) ≤ v) ∧
    (∀ d, InvGamma.new a b = .ok d → ∀ v, d.variance = .ok v → (0 : F64) ≤ v) ∧
    (∀ d, StudentT.new a = .ok d → ∀ v, d.variance = .ok v → (0 : F64) ≤ v) ∧
    (∀ d, Pareto.new a b = .ok d → (0 : F64) ≤ d.variance) ∧
    (∀ m n : ℕ, m < 2 ^ 64 → n < 2 ^ 64 → ∀ d, FDist.new m n = .ok d → ∀ v, d.variance = .ok v → (0 : F64) ≤ v) := by
  refine ⟨fun d h v hv => ?_, fun d h v hv => ?_, fun d h v hv => ?_, fun d h => ?_, fun m n hm hn d h v hv => ?_⟩
  · obtain ⟨h0, h1, rfl⟩ := BetaPrime.new_ok.1 h
    have hs := pos_of_lt h1 hb.1
    have hr := pos_of_lt h0 ha.1
    have e1 := ha.1.eq_fin hr.ne'
    have e2 := hb.1.eq_fin hs.ne'
    subst e1 e2
    unfold BetaPrime.variance at hv
    split at hv
    · cases hv
    · rename_i hc
      have h2 : 2 < s := by
        by_contra hh; exact hc ((hb.1.le_iff (Is.num 2)).2 (not_lt.1 hh))
      obtain ⟨⟨u, hu, u1, _⟩, w, hw, w0, _⟩ := shape_subs hb.2 h2
      cases hv
      dsimp only
      rw [hu, hw]
      exact nn_div (by linarith) (nn_div (by linarith) (nn_div w0 (mul_nn hr (nn_add (nn_fin hr.le) (nn_fin (by linarith))))))
  · obtain ⟨h0, h1, rfl⟩ := InvGamma.new_ok.1 h
    have hs := pos_of_lt h1 hb.1
    have hr := pos_of_lt h0 ha.1
    have e1 := ha.1.eq_fin hr.ne'
    have e2 := hb.1.eq_fin hs.ne'
    subst e1 e2
    unfold InvGamma.variance at hv
    split at hv
    · cases hv
    · rename_i hc
      have h2 : 2 < r := by
        by_contra hh; exact hc ((ha.1.le_iff (Is.num 2)).2 (not_lt.1 hh))
      obtain ⟨⟨u, hu, u1, _⟩, w, hw, w0, _⟩ := shape_subs ha.2 h2
      cases hv
      dsimp only
      rw [hu, hw]
      exact nn_div w0 (nn_div (by linarith) (nn_div (by linarith) (fin_sq_nn s)))
  · obtain rfl := StudentT.new_ok.1 h
    unfold StudentT.variance at hv
    split at hv
    · cases hv
    split at hv
    · cases hv
    · rename_i _ hc
      have h2 : 2 < r := by
        by_contra hh; exact hc ((ha.1.le_iff (Is.num 2)).2 (not_lt.1 hh))
      have e1 := ha.1.eq_fin (by linarith)
      subst e1
      obtain ⟨_, w, hw, w0, _⟩ := shape_subs ha.2 h2
      cases hv
      dsimp only
      rw [hw]
      exact nn_div w0 (nn_fin (by linarith))
  · obtain ⟨h1, rfl⟩ := Pareto.new_ok.1 h
    have hs := pos_of_lt h1 hb.1
    have e2 := hb.1.eq_fin hs.ne'
    subst e2
    unfold Pareto.variance
    split
    · exact le_pinf Is.zero
    · rename_i hc
      have h2 : 2 < s := by
        by_contra hh; exact hc ((hb.1.le_iff (Is.num 2)).2 (not_lt.1 hh))
      obtain ⟨⟨u, hu, u1, _⟩, w, hw, w0, _⟩ := shape_subs hb.2 h2
      dsimp only
      rw [hu, hw]
      exact nn_div w0 (nn_div (by linarith) (nn_div (by linarith) (nn_mul hs (is_sq_nn ha.1))))
  · obtain ⟨h0, h1, rfl⟩ := FDist.new_ok.1 h
    unfold FDist.variance at hv
    split at hv
    · cases hv
    · rename_i hc
      have kp : ∀ e : ℕ, e ≤ 1000 → Keep ((2:ℝ) ^ e) := fun e he => keep_b64 (by
        have := rnd_repr 1 e (by norm_num) (by omega)
        rwa [Int.cast_one, one_mul, zpow_natCast] at this) (by
        rw [abs_of_pos (by positivity)]; exact pow_lt_pow_right₀ (by norm_num) (by omega))
      have hb : ∀ k : ℕ, k < 2 ^ 64 → Btw 0 (2 ^ 64) (F64.ofNat k) := fun k hk => by
        have : (k:ℝ) ≤ 2 ^ 64 := by exact_mod_cast hk.le
        exact round_btw (keep 0 0) (kp 64 (by norm_num)) (Nat.cast_nonneg k) this
      have h2 : Btw 5 (2 ^ 64) (F64.ofNat n) := by
        have h5 : (5:ℝ) ≤ n := by
          have : 5 ≤ n := by simp only at hc; omega
          exact_mod_cast this
        have : (n:ℝ) ≤ 2 ^ 64 := by exact_mod_cast hn.le
        exact round_btw (keep 5 0) (kp 64 (by norm_num)) h5 this
      obtain ⟨f1, e1, g1⟩ := ofNat_pos hm h0
      have hf1 : f1 ≤ 2 ^ 64 := by
        obtain ⟨x, hx, _, x1⟩ := hb m hm
        rw [e1] at hx; rwa [(Is.fin f1).eq hx]
      have hm2 : Btw 1 (2 ^ 64) (F64.ofNat n - 2) := h2.sub (Btw.num (Is.num 2)) (keep 1 0) (kp 64 (by norm_num)) fun x y a b c d => by
        constructor <;> linarith
      have hm4 : Btw 1 (2 ^ 64) (F64.ofNat n - 4) := h2.sub (Btw.num (Is.num 4)) (keep 1 0) (kp 64 (by norm_num)) fun x y a b c d => by
        constructor <;> linarith
      have hsum : Btw 1 (2 ^ 65) (F64.ofNat m + (F64.ofNat n - 2)) := by
        rw [e1]
        exact (Btw.num (Is.fin f1)).add hm2 (keep 1 0) (kp 65 (by norm_num)) fun x y a b c d => by
          constructor
          · linarith
          · rw [pow_succ]; linarith
      obtain ⟨u, hu, u0, _⟩ := h2.pos (by norm_num)
      obtain ⟨v2, hv2, v20, _⟩ := hm2.pos (by norm_num)
      obtain ⟨v4, hv4, v40, _⟩ := hm4.pos (by norm_num)
      obtain ⟨w, hw, w0, _⟩ := hsum.pos (by norm_num)
      cases hv
      show (0 : F64) ≤ 2 * F64.ofNat n * F64.ofNat n * (F64.ofNat m + (F64.ofNat n - 2)) / F64.ofNat m / (F64.ofNat n - 2) / (F64.ofNat n - 2) /
        (F64.ofNat n - 4)
      rw [hw, hv2, hv4, hu, e1]
      exact nn_div v40 (nn_div v20 (nn_div v20 (nn_div (by linarith) (nn_mul w0 (nn_mul u0 (nn_mul u0 (nn_is (Is.num 2) (by norm_num))))))))

-- non-vacuity: huge, tiny and subnormal parameters are accepted and covered
example : ∃ d, Gamma.new (fin (2 ^ 1000)) (fin (1 / 2 ^ 1000)) = .ok d ∧ (0 : F64) ≤ d.variance := by
  have h : Gamma.new (fin (2 ^ 1000)) (fin (1 / 2 ^ 1000)) = .ok ⟨fin (2 ^ 1000), fin (1 / 2 ^ 1000)⟩ :=
    Gamma.new_ok.2 ⟨lt_of_pos (by positivity) (Is.fin _), lt_of_pos (by positivity) (Is.fin _), rfl⟩
  exact ⟨_, h, (C235_float_variance_shape_partial (by simp) (by simp)).2.1 _ h⟩
example : ∃ d, BetaBinomial.new 7 (fin 1) (fin (1 / 2 ^ 1074)) = .ok d ∧ (0 : F64) ≤ d.variance := by
  have h : BetaBinomial.new 7 (fin 1) (fin (1 / 2 ^ 1074)) = .ok (BetaBinomial.fromParams 7 (fin 1) (fin (1 / 2 ^ 1074))) :=
    BetaBinomial.new_ok.2 ⟨lt_of_pos one_pos (Is.fin _), lt_of_pos (by positivity) (Is.fin _), rfl⟩
  exact ⟨_, h, (C235_float_variance_discrete_partial (p := 0)).2.2.2 7 _ _ (by norm_num) ⟨1, Is.fin 1, keep 1 0⟩ (by simp) _ h⟩
example : ∃ d v, StudentT.new (fin (2 + 1 / 2 ^ 51)) = .ok d ∧ d.variance = .ok v ∧ (0 : F64) ≤ v := by
  have h : StudentT.new (fin (2 + 1 / 2 ^ 51)) = .ok ⟨fin (2 + 1 / 2 ^ 51)⟩ := StudentT.new_ok.2 rfl
  have hv : StudentT.variance ⟨fin (2 + 1 / 2 ^ 51)⟩ = .ok (fin (2 + 1 / 2 ^ 51) / (fin (2 + 1 / 2 ^ 51) - 2)) := by
    unfold StudentT.variance
    rw [if_neg (by rw [(Is.fin _).le_iff Is.one]; norm_num), if_neg (by rw [(Is.fin _).le_iff (Is.num 2)]; norm_num)]
  exact ⟨_, _, h, hv, (C235_float_variance_threshold_partial (a := fin (2 + 1 / 2 ^ 51)) (b := fin 1) ⟨Is.fin _, keep (2 ^ 52 + 1) 51⟩
    ⟨Is.fin _, keep 1 0⟩).2.2.1 _ h _ hv⟩
end
end Rstat
