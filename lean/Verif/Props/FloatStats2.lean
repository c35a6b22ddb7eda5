import Verif.Props.FloatStats
import Verif.Props.Dist.Beta
import Verif.Props.Dist.LogNormal
import Verif.Props.Dist.Triangular
import Verif.Props.Dist.Weibull
import Verif.Props.Dist.GEV
import Mathlib.Analysis.SpecialFunctions.Gamma.Deligne
import Mathlib.Analysis.SpecialFunctions.Gamma.Basic

/-! C235, the negative half: families of accepted, finite binary64 parameters whose `variance()` is NaN or negative. -/
set_option linter.unusedSectionVars false
namespace Rstat
open F64 Spec Consts
section
open B64
attribute [local instance] binary64 binary64_lawful B64.libm

theorem rnd_two_pow {e : ℤ} (he : -1074 ≤ e) : rnd ((2:ℝ) ^ e) = 2 ^ e := by
  have := rnd_repr 1 e (by norm_num) he
  rwa [Int.cast_one, one_mul] at this
theorem round_pinf {y : ℝ} (h : 2 ^ 1024 ≤ y) : F64.round y = pinf := by
  have h0 : 0 < y := lt_of_lt_of_le (by positivity) h
  have hr : (2:ℝ) ^ 1024 ≤ rnd y := by
    have := rnd_mono h
    have e : rnd ((2:ℝ) ^ 1024) = 2 ^ 1024 := by
      have := rnd_two_pow (e := 1024) (by norm_num)
      rwa [show (2:ℝ) ^ (1024:ℤ) = 2 ^ 1024 from zpow_natCast 2 1024] at this
    rwa [e] at this
  have hh : FP.huge (FP.rnd y) := by
    show (2:ℝ) ^ 1024 ≤ |rnd y|
    exact hr.trans (le_abs_self _)
  unfold F64.round
  rw [if_pos hh, if_pos h0]
theorem mul_pinf_of {r s : ℝ} (hr : 0 < r) (hs : 0 < s) (h : 2 ^ 1024 ≤ r * s) : fin r * fin s = pinf := by
  have hm := mul_finite (Is.fin r) (Is.fin s)
  rw [if_neg (mul_pos hr hs).ne'] at hm
  rw [hm, round_pinf h]
theorem pinf_mul_pos {x : F64} (h : 0 < x) : pinf * x = pinf := by
  rcases pos_cases h with rfl | ⟨r, rfl, hr⟩
  · show F64.mul pinf pinf = pinf
    simp [F64.mul, F64.sinf]
  · show F64.mul pinf (fin r) = pinf
    simp [F64.mul, F64.sinf, hr.ne', not_lt.2 hr.le]
theorem le_fin_cases {x : F64} {c : ℝ} (h : fin c ≤ x) : x = pinf ∨ ∃ r, x.Is r ∧ c ≤ r := by
  obtain ⟨_, _, h1⟩ := le_cases.1 h
  rcases h1 with h | h | ⟨r, s, hr, hs, h1⟩
  · cases h
  · exact .inl h
  · rw [← (Is.fin c).eq hr] at h1
    exact .inr ⟨s, hs, h1⟩
set_option exponentiation.threshold 2000 in
theorem gamma_big {r : ℝ} (h : 200 ≤ r) : 2 ^ 1024 ≤ Real.Gamma r := by
  have h1 : Real.Gamma 200 ≤ Real.Gamma r := by
    rcases h.eq_or_lt with h | h
    · rw [h]
    · exact (Real.Gamma_strictMonoOn_Ici (by norm_num : (2:ℝ) ≤ 200) (by simpa using by linarith : (2:ℝ) ≤ r) h).le
  have h2 : Real.Gamma 200 = (Nat.factorial 199 : ℝ) := by
    have := Real.Gamma_nat_eq_factorial 199
    rw [← this]; norm_num
  have h3 : 2 ^ 1024 ≤ Nat.factorial 199 := by norm_num [Nat.factorial]
  rw [h2] at h1
  refine le_trans ?_ h1
  exact_mod_cast h3
theorem gamma_pinf {x : F64} (h : fin 200 ≤ x) : x.gamma = pinf := by
  rcases le_fin_cases h with rfl | ⟨r, hr, h⟩
  · rfl
  · show special .nan .pinf Real.Gamma x = pinf
    rw [special_is hr, round_pinf (gamma_big h)]
theorem pinf_pos : (0 : F64) < pinf := by
  have h := le_cases.1 (le_pinf (a := (1 : F64)) Is.one)
  exact lt_of_lt_of_le' (lt_of_pos one_pos Is.one) (le_pinf Is.one)
theorem pinf_mul_pinf : (pinf * pinf : F64) = pinf := pinf_mul_pos pinf_pos
theorem keep_pow {e : ℕ} (he : e ≤ 1023) : Keep ((2:ℝ) ^ e) := keep_b64 (by
  have := rnd_repr 1 e (by norm_num) (by omega)
  rwa [Int.cast_one, one_mul, zpow_natCast] at this) (by
  rw [abs_of_pos (by positivity)]; exact pow_lt_pow_right₀ (by norm_num) (by omega))
theorem fin_le_add {c r : ℝ} {x y : F64} (hc : Keep c) (h : c ≤ r) (hr : x.Is r) (hy : (0 : F64) ≤ y) : fin c ≤ x + y := by
  rcases nonneg_cases hy with rfl | ⟨s, hs, h0⟩
  · rw [fin_add_pinf hr]; exact le_pinf (Is.fin c)
  · exact le_congr rfl (add_ext hr hs).symm (le_round_of_le (by linarith) hc.1 hc.2)
theorem big_mul {x y : F64} (hx : fin (2 ^ 512) ≤ x) (hy : fin (2 ^ 512) ≤ y) : x * y = pinf := by
  have pos : ∀ {z : F64}, fin (2 ^ 512) ≤ z → 0 < z := fun h => lt_of_lt_of_le' (lt_of_pos (by positivity) (Is.fin _)) h
  rcases le_fin_cases hx with rfl | ⟨r, hr, h1⟩
  · exact pinf_mul_pos (pos hy)
  have r0 : 0 < r := lt_of_lt_of_le (by positivity) h1
  have e := hr.eq_fin r0.ne'
  subst e
  rcases le_fin_cases hy with rfl | ⟨s, hs, h2⟩
  · show F64.mul (fin r) pinf = pinf
    simp [F64.mul, F64.sinf, r0.ne', not_lt.2 r0.le]
  have s0 : 0 < s := lt_of_lt_of_le (by positivity) h2
  rw [hs.eq_fin s0.ne']
  refine mul_pinf_of r0 s0 ?_
  calc (2:ℝ) ^ 1024 = 2 ^ 512 * 2 ^ 512 := by rw [← pow_add]
    _ ≤ r * s := mul_le_mul h1 h2 (by positivity) r0.le
theorem pp : (pinf + pinf : F64) = pinf := rfl
theorem pmp : (pinf - pinf : F64) = nan := rfl
theorem pdp : (pinf / pinf : F64) = nan := by
  show F64.div pinf pinf = nan
  simp [F64.div]

/-- Beta: `inf / inf` -/
theorem beta_var_nan {r s : ℝ} (hr : 2 ^ 512 ≤ r) (hs : 2 ^ 512 ≤ s) : BetaDist.variance ⟨fin r, fin s⟩ = nan := by
  have s0 : 0 < s := lt_of_lt_of_le (by positivity) hs
  have h2 : fin (2 ^ 512) ≤ fin r + fin s := fin_le_add (keep_pow (by norm_num)) hr (Is.fin r) (nn_fin s0.le)
  have h4 : (0 : F64) < fin r + fin s + 1 := by
    rcases le_fin_cases h2 with h | ⟨x, hx, hc⟩
    · rw [h, pinf_add Is.one]; exact pinf_pos
    · exact lt_of_lt_of_le' (lt_of_pos (by positivity) (Is.fin _)) (fin_le_add (keep_pow (e := 512) (by norm_num)) hc hx (nn_is Is.one zero_le_one))
  unfold BetaDist.variance
  dsimp only
  rw [big_mul (fin_le_fin.2 hr) (fin_le_fin.2 hs), big_mul h2 h2, pinf_mul_pos h4, pdp]
/-- Triangular: `inf - inf` -/
theorem triangular_var_nan {r : ℝ} {p q : F64} (hr : 2 ^ 512 ≤ r) (hp : 0 < p) (hq : 0 < q) : Triangular.variance ⟨fin r, p, q⟩ = nan := by
  have h1 : fin (2 ^ 512) ≤ fin r := fin_le_fin.2 hr
  have h2 : fin (2 ^ 512) ≤ fin r + p := fin_le_add (keep_pow (by norm_num)) hr (Is.fin r) (le_of_lt' hp)
  have h3 : fin (2 ^ 512) ≤ fin r + p + q := by
    rcases le_fin_cases h2 with h | ⟨x, hx, hc⟩
    · rw [h]
      rcases pos_cases hq with rfl | ⟨t, rfl, _⟩
      · exact le_pinf (Is.fin _)
      · rw [pinf_add (Is.fin t)]; exact le_pinf (Is.fin _)
    · exact fin_le_add (keep_pow (by norm_num)) hc hx (le_of_lt' hq)
  unfold Triangular.variance Triangular.b Triangular.c
  dsimp only
  rw [big_mul h1 h1, big_mul h2 h2, big_mul h3 h3, big_mul h1 h2, big_mul h1 h3, big_mul h3 h2, pp, pp, pmp]
  rfl
/-- Weibull with a small shape: both Gamma values overflow -/
theorem weibull_var_nan {l : F64} {k : ℝ} (h0 : 0 < k) (hk : k ≤ 1 / 200) : Weibull.variance ⟨l, fin k⟩ = nan := by
  have key : ∀ {z : F64} {n : ℝ}, z.Is n → 1 ≤ n → Weibull.gammaI ⟨l, fin k⟩ z = pinf := fun {z n} hz hn => by
    unfold Weibull.gammaI
    dsimp only
    apply gamma_pinf
    have h1 : (200:ℝ) ≤ n / k := by
      rw [le_div_iff₀ h0]; linarith
    have h2 : fin 200 ≤ z / fin k := le_congr rfl (div_fin_ext hz (Is.fin k) h0.ne').symm
      (le_round_of_le h1 (keep 200 0).1 (keep 200 0).2)
    rcases le_fin_cases h2 with h | ⟨x, hx, hc⟩
    · rw [h, fin_add_pinf Is.one]; exact le_pinf (Is.fin _)
    · exact le_congr rfl (add_ext Is.one hx).symm (le_round_of_le (by linarith) (keep 200 0).1 (keep 200 0).2)
  unfold Weibull.variance
  dsimp only
  rw [key Is.one le_rfl, key (Is.num 2) (by norm_num), pinf_mul_pinf, pmp]
  exact mul_nan _
/-- Chi with many degrees of freedom: `inf / inf` -/
theorem chi_mean_nan {k : ℕ} (hk : 400 ≤ k) (h64 : k < 2 ^ 64) : Chi.mean ⟨k⟩ = nan := by
  have hb : Btw 400 (2 ^ 64) (F64.ofNat k) := by
    have h1 : (400:ℝ) ≤ k := by exact_mod_cast hk
    have h2 : (k:ℝ) ≤ 2 ^ 64 := by exact_mod_cast h64.le
    exact round_btw (keep 400 0) (keep_pow (by norm_num)) h1 h2
  have two := Btw.num (Is.num 2)
  have h1 : Btw 200 (2 ^ 64) (F64.ofNat k / 2) := hb.div two (by norm_num) (keep 200 0) (keep_pow (by norm_num)) fun x y a b c d => by
    have : y = 2 := le_antisymm d c
    subst y; constructor <;> linarith
  have h2 : Btw 400 (2 ^ 65) (F64.ofNat k + 1) := hb.add (Btw.num Is.one) (keep 400 0) (keep_pow (by norm_num)) fun x y a b c d => by
    constructor
    · linarith
    · rw [pow_succ]; linarith
  have h3 : Btw 200 (2 ^ 65) ((F64.ofNat k + 1) / 2) := h2.div two (by norm_num) (keep 200 0) (keep_pow (by norm_num)) fun x y a b c d => by
    have : y = 2 := le_antisymm d c
    subst y; constructor <;> linarith
  have g : ∀ {x : F64} {c : ℝ}, Btw 200 c x → x.gamma = pinf := fun {x c} ⟨r, hr, a, _⟩ =>
    gamma_pinf ((Is.fin 200).le_iff hr |>.2 a)
  unfold Chi.mean Chi.kf
  dsimp only
  rw [g h1, g h3]
  have hs : (2 : F64).sqrt * pinf = pinf := by
    obtain ⟨r, hr, a, b⟩ : Btw 1 2 (2 : F64).sqrt := by
      have e : (2 : F64) = fin 2 := (Is.num 2).eq_fin two_ne_zero
      rw [e]
      unfold F64.sqrt
      dsimp only
      rw [if_neg (by norm_num)]
      exact round_btw (keep 1 0) (keep 2 0) (Real.le_sqrt_of_sq_le (by norm_num)) (Real.sqrt_le_iff.2 (by norm_num))
    rw [hr.eq_fin (by linarith)]
    show F64.mul (fin r) pinf = pinf
    simp [F64.mul, F64.sinf, show r ≠ 0 by linarith, show ¬ r < 0 by linarith]
  rw [hs, pdp]
theorem chi_var_nan {k : ℕ} (hk : 400 ≤ k) (h64 : k < 2 ^ 64) : Chi.variance ⟨k⟩ = nan := by
  unfold Chi.variance
  rw [chi_mean_nan hk h64, show (nan * nan : F64) = nan from rfl]
  exact add_nan _
/-- LogNormal: `0 * inf` -/
theorem lognormal_var_nan {r s : ℝ} (hr : 512 ≤ r) (h0 : 0 < s) (hs : s ≤ 1 / 2 ^ 27) : LogNormal.variance ⟨⟨fin r, fin s⟩⟩ = nan := by
  obtain ⟨t, ht, t0, t1⟩ : Btw 0 (1 / 2 ^ 54) (fin s * fin s) := (Btw.num (Is.fin s)).mul (Btw.num (Is.fin s)) (keep 0 0) (keep 1 54)
    fun x y a b c d => by
      have : x = s := le_antisymm b a
      have : y = s := le_antisymm d c
      subst x y
      refine ⟨by positivity, ?_⟩
      calc _ ≤ 1 / 2 ^ 27 * (1 / 2 ^ 27) := mul_le_mul hs hs h0.le (by positivity)
        _ = 1 / 2 ^ 54 := by norm_num
  have e1 : ((fin s * fin s).exp - 1).Is 0 := by
    have h1 : (fin s * fin s).exp.Is 1 := by
      rw [exp_fin ht]
      show (F64.round (Real.exp t)).Is 1
      have hle : Real.exp t ≤ 1 + 1 / 2 ^ 53 := by
        have hb := Real.abs_exp_sub_one_le (x := t) (by rw [abs_of_nonneg t0]; exact t1.trans (by norm_num))
        rw [abs_of_nonneg t0] at hb
        have := (abs_le.1 hb).2
        have : 2 * t ≤ 1 / 2 ^ 53 := by
          calc 2 * t ≤ 2 * (1 / 2 ^ 54) := by linarith
            _ = 1 / 2 ^ 53 := by norm_num
        linarith
      have e : rnd (Real.exp t) = 1 := le_antisymm (rnd_le_one' hle) (by
        have := rnd_mono (Real.one_le_exp t0)
        rwa [show rnd (1:ℝ) = 1 from rnd_one] at this)
      rw [round_eq e (by norm_num) one_ne_zero]
      exact Is.fin 1
    have e := add_ext h1 (Is.one).neg
    rw [show (1:ℝ) + -1 = 0 by norm_num] at e
    exact round_zero_is.of_ext e.symm
  have e2 : (2 * fin r + fin s * fin s).exp = pinf := by
    have h2 : fin 1024 ≤ 2 * fin r := le_congr rfl (mul_fin_ext (Is.num 2) (Is.fin r)).symm
      (le_round_of_le (by linarith) (keep 1024 0).1 (keep 1024 0).2)
    have h3 : fin 1024 ≤ 2 * fin r + fin s * fin s := by
      rcases le_fin_cases h2 with h | ⟨x, hx, hc⟩
      · rw [h, pinf_add ht]; exact le_pinf (Is.fin _)
      · exact fin_le_add (keep 1024 0) hc hx (nn_is ht t0)
    rcases le_fin_cases h3 with h | ⟨x, hx, hc⟩
    · rw [h]; rfl
    · rw [exp_fin hx]
      apply round_pinf
      show (2:ℝ) ^ 1024 ≤ Real.exp x
      calc (2:ℝ) ^ 1024 ≤ (Real.exp 1) ^ 1024 := by
            gcongr
            have := Real.add_one_le_exp (1:ℝ)
            linarith
        _ = Real.exp 1024 := by rw [← Real.exp_nat_mul]; norm_num
        _ ≤ Real.exp x := Real.exp_le_exp.2 hc
  unfold LogNormal.variance
  dsimp only
  rw [e2]
  rcases e1 with h | ⟨h, _⟩ <;> rw [h] <;> (first | rfl | (show F64.mul _ pinf = nan; simp [F64.mul]))

theorem zero_mul_self : (fin 0 * fin 0 : F64) = fin 0 := by
  have h := mul_finite (Is.fin 0) (Is.fin 0)
  rw [if_pos (zero_mul 0)] at h
  rw [h]; unfold F64.szero; simp
theorem one_sub_one64 : (1 - 1 : F64) = fin 0 := by
  have e1 : (1 : F64) = fin 1 := rfl
  rw [e1, show (fin 1 - fin 1 : F64) = F64.add (fin 1) (-(fin 1)) from rfl, show (-(fin 1) : F64) = fin (-1) by show F64.neg (fin 1) = _; simp [F64.neg]]
  simp only [F64.add]
  simp
  unfold F64.round
  rw [show FP.rnd (0:ℝ) = 0 from F64.rnd_zero, if_neg (FP.Lawful.not_huge 0 (by simp))]
  simp
/-- Generalised Pareto with `zeta = 1` -/
theorem gpd_var_neg {a : F64} {s : ℝ} (hs : 0 < s) : ∃ v, GeneralisedPareto.variance ⟨a, fin s, 1⟩ = .ok v ∧ ¬ (0 : F64) ≤ v := by
  unfold GeneralisedPareto.variance
  dsimp only
  rw [if_neg (by rw [Is.one.le_iff (Is.fin _)]; norm_num)]
  refine ⟨_, rfl, ?_⟩
  have e2 : (fin 0 : F64).powi 2 = fin 0 := by
    unfold F64.powi
    rw [if_neg (by norm_num)]
    show F64.powiLoop (fin 0) (fin 1) 2 = fin 0
    rw [F64.powiLoop, dif_neg (by norm_num), if_neg (by norm_num), F64.powiLoop, dif_pos (by norm_num), if_pos (by norm_num), zero_mul_self]
    have h := mul_finite (Is.fin 1) (Is.fin 0)
    rw [if_pos (mul_zero 1)] at h
    rw [h]; unfold F64.szero; simp
  have e3 : (1 - 2 * 1 : F64) = fin (-1) := by
    obtain ⟨x, hx, h1, h2⟩ : Btw (-1) (-1) (1 - 2 * 1 : F64) := (Btw.num Is.one).sub ((Btw.num (Is.num 2)).mul (Btw.num Is.one) (keep 2 0) (keep 2 0)
      (lo := 2) (hi := 2) fun x y a b c d => by constructor <;> nlinarith) (keep (-1) 0) (keep (-1) 0) fun x y a b c d => by constructor <;> linarith
    have : x = -1 := le_antisymm h2 h1
    subst x
    exact hx.eq_fin (by norm_num)
  rw [one_sub_one64, e2, e3]
  rcases nonneg_cases (fin_sq_nn s) with h | ⟨x, hx, x0⟩
  · rw [h]
    have : (pinf / fin 0 / fin (-1) : F64) = ninf := by
      show F64.div (F64.div pinf (fin 0)) (fin (-1)) = ninf
      simp [F64.div, F64.sinf]
    rw [this]; exact not_le_ninf Is.zero
  · rcases x0.eq_or_lt with h0 | h0
    · rw [← h0] at hx
      have : (fin s * fin s) / fin 0 = nan := by
        show F64.div (fin s * fin s) (fin 0) = nan
        rcases hx with h | ⟨h, _⟩ <;> rw [h] <;> simp [F64.div]
      rw [this, show nan / fin (-1) = nan from rfl]; exact not_le_nan
    · rw [hx.eq_fin h0.ne']
      have : (fin x / fin 0 / fin (-1) : F64) = ninf := by
        show F64.div (F64.div (fin x) (fin 0)) (fin (-1)) = ninf
        simp [F64.div, F64.sinf, h0.ne', not_lt.2 h0.le]
      rw [this]; exact not_le_ninf Is.zero

/-- C235 (violation): accepted finite parameters for which `variance()` is NaN or negative, family by family. -/
theorem C235_float_variance_violated :
    (∀ r s : ℝ, 2 ^ 512 ≤ r → 2 ^ 512 ≤ s → ∀ d, BetaDist.new (fin r) (fin s) = .ok d → d.variance = nan) ∧
    (∀ (r : ℝ) (p q : F64), 2 ^ 512 ≤ r → ∀ d, Triangular.new (fin r) p q = .ok d → d.variance = nan) ∧
    (∀ (k : ℝ) (l : F64), k ≤ 1 / 200 → ∀ d, Weibull.new l (fin k) = .ok d → d.variance = nan) ∧
    (∀ k : ℕ, 400 ≤ k → k < 2 ^ 64 → ∀ d, Chi.new k = .ok d → d.variance = nan) ∧
    (∀ r s : ℝ, 512 ≤ r → s ≤ 1 / 2 ^ 27 → ∀ d, LogNormal.new (fin r) (fin s) = .ok d → d.variance = nan) ∧
    (∀ a b : F64, b.isFinite → ∀ d, GeneralisedPareto.new a b 1 = .ok d → ∃ v, d.variance = .ok v ∧ ¬ (0 : F64) ≤ v) := by
  refine ⟨fun r s h1 h2 d h => ?_, fun r p q h1 d h => ?_, fun k l hk d h => ?_, fun k h1 h2 d h => ?_, fun r s h1 h2 d h => ?_, fun a b hb d h => ?_⟩
  · obtain ⟨_, _, rfl⟩ := BetaDist.new_ok.1 h; exact beta_var_nan h1 h2
  · obtain ⟨hp, hq, rfl⟩ := Triangular.new_ok.1 h; exact triangular_var_nan h1 hp hq
  · obtain ⟨_, hk', rfl⟩ := Weibull.new_ok.1 h; exact weibull_var_nan (pos_of_lt hk' (Is.fin k)) hk
  · obtain ⟨_, rfl⟩ := Chi.new_ok.1 h; exact chi_var_nan h1 h2
  · obtain ⟨hs, rfl⟩ := LogNormal.new_ok.1 h; exact lognormal_var_nan h1 (pos_of_lt hs (Is.fin s)) h2
  · obtain ⟨h0, _, rfl⟩ := GeneralisedPareto.new_ok.1 h
    obtain ⟨s, rfl, hs⟩ := fin_pos h0 hb
    exact gpd_var_neg hs

-- non-vacuity: every family of the violation contains accepted parameters
example : ∃ d, BetaDist.new (fin (2 ^ 600)) (fin (2 ^ 512)) = .ok d ∧ d.variance = nan := by
  have h : BetaDist.new (fin (2 ^ 600)) (fin (2 ^ 512)) = .ok ⟨fin (2 ^ 600), fin (2 ^ 512)⟩ :=
    BetaDist.new_ok.2 ⟨lt_of_pos (by positivity) (Is.fin _), lt_of_pos (by positivity) (Is.fin _), rfl⟩
  exact ⟨_, h, C235_float_variance_violated.1 _ _ (pow_le_pow_right₀ (by norm_num) (by norm_num)) le_rfl _ h⟩
example : ∃ d, LogNormal.new (fin 1000) (fin (1 / 2 ^ 30)) = .ok d ∧ d.variance = nan := by
  have h : LogNormal.new (fin 1000) (fin (1 / 2 ^ 30)) = .ok ⟨⟨fin 1000, fin (1 / 2 ^ 30)⟩⟩ :=
    LogNormal.new_ok.2 ⟨lt_of_pos (by positivity) (Is.fin _), rfl⟩
  exact ⟨_, h, C235_float_variance_violated.2.2.2.2.1 _ _ (by norm_num) (by norm_num) _ h⟩
example : ∃ d, Weibull.new (fin 1) (fin (1 / 256)) = .ok d ∧ d.variance = nan := by
  have h : Weibull.new (fin 1) (fin (1 / 256)) = .ok ⟨fin 1, fin (1 / 256)⟩ :=
    Weibull.new_ok.2 ⟨lt_of_pos one_pos (Is.fin _), lt_of_pos (by norm_num) (Is.fin _), rfl⟩
  exact ⟨_, h, C235_float_variance_violated.2.2.1 _ _ (by norm_num) _ h⟩
end
end Rstat
