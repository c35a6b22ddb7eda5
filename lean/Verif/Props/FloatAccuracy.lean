import Verif.Lemmas.FloatRel2
import Verif.Spec.FloatCDF
import Verif.Spec.Families
import Verif.Spec.NormalFamilies
import Verif.Props.FloatCdf
import Verif.Props.FloatStats2
import Verif.Props.Normal
import Verif.Props.Dist.Logistic
import Verif.Props.Dist.Gumbel
import Verif.Props.Dist.Cauchy
import Verif.Props.Dist.Exponential

/-! C251: how far the computed distribution functions are from the real ones. -/
set_option linter.unusedSectionVars false
namespace Rstat
open F64 Spec Consts

section
variable [FP] [FP.Lawful] [FP.Accurate] [FP.Libm]

/-- C251: the exponential distribution function is within 2^-47 of the real one at every non-negative f64, for every finite rate -/
theorem C251_exponential {a : F64} {l : ℝ} {d : Exponential} (h : Exponential.new a = .ok d) (ha : a.Is l) :
    AccurateCDF d.cdf (expCDF l) (Set.Ici 0) (1 / 2 ^ 47) := by
  obtain ⟨h0, rfl⟩ := Exponential.new_ok.1 h
  have hl := pos_of_lt h0 ha
  intro x r _ hx hr
  have hr : 0 ≤ r := hr
  have ht : 0 ≤ l * r := by positivity
  have e := mul_fin_ext ha.neg hx
  rw [neg_mul] at e
  have hz := zed_of_ext e
  have hw := zed_expneg ht hz (fun Z hZ => by
    have h1 : F64.round (-(l * r)) ≤ F64.round 0 := round_mono (by linarith)
    have h2 := le_congr e.symm rfl h1
    exact (hZ.le_iff round_zero_is).1 h2)
  have e1 : Real.exp (-(l * r)) ≤ 1 := Real.exp_le_one_iff.2 (by linarith)
  have p := Real.exp_pos (-(l * r))
  have hs := Within.sub (ρ := 1 / 2 ^ 47) 1 (Within.exact Is.one) hw (by rw [abs_le]; constructor <;> linarith) (by norm_num) (by norm_num)
  have : expCDF l r = 1 - Real.exp (-(l * r)) := by
    unfold expCDF; split_ifs with h
    · rw [le_antisymm h hr]; simp
    · rfl
  rw [this]; exact hs

/-- C251 (part): the logistic distribution function is within 2^-47 of the real one wherever the subtraction `x - mu` does not overflow
(see `C251_logistic_violated`) -/
theorem C251_logistic_partial {a b : F64} {m s : ℝ} {d : Logistic} (h : Logistic.new a b = .ok d) (fa : IsF64 a) (ha : a.Is m)
    (hb : b.Is s) : AccurateCDF d.cdf (logisticCDF m s) {r | ¬ FP.huge (FP.rnd (r - m))} (1 / 2 ^ 47) := by
  obtain ⟨h0, rfl⟩ := Logistic.new_ok.1 h
  intro x r fx hx hr
  have hz := (zscore hx ha hb (pos_of_lt h0 hb) (fx r hx).1 (fa m ha).1 hr).neg
  have := zed_logistic hz
  rw [← neg_div] at this
  exact this

/-- C251 (part): the same for the Gumbel distribution function -/
theorem C251_gumbel_partial {a b : F64} {m s : ℝ} {d : Gumbel} (h : Gumbel.new a b = .ok d) (fa : IsF64 a) (ha : a.Is m)
    (hb : b.Is s) : AccurateCDF d.cdf (gumbelCDF m s) {r | ¬ FP.huge (FP.rnd (r - m))} (1 / 2 ^ 47) := by
  obtain ⟨h0, rfl⟩ := Gumbel.new_ok.1 h
  intro x r fx hx hr
  have hz := (zscore hx ha hb (pos_of_lt h0 hb) (fx r hx).1 (fa m ha).1 hr).neg
  have := zed_dexp hz
  rw [← neg_div] at this
  exact this

theorem one_over_pi_within : Within ONE_OVER_PI (1 / Real.pi) (1 / 2 ^ 51) := by
  have h3 := Real.pi_gt_three
  have h4 := Real.pi_le_four
  obtain ⟨P, hP, hPe⟩ : Within PI Real.pi (5 / 2 ^ 53) :=
    Within.round (ε := 0) (M := 4) (by simp) (by rw [abs_of_pos (by linarith)]; exact h4) (by norm_num) (by norm_num)
  have hP3 : 2 ≤ P := by
    have := (abs_le.1 hPe).1
    have : (5:ℝ) / 2 ^ 53 ≤ 1 := by norm_num
    linarith
  have hd := Within.div_exact (ρ := 1 / 2 ^ 52) 1 Is.one hP (by linarith : P ≠ 0)
    (by rw [abs_of_pos (by positivity), div_le_one (by linarith)]; linarith) (by norm_num) (by norm_num)
  refine hd.shift ?_
  have e3 : |1 / P - 1 / Real.pi| ≤ 5 / 2 ^ 53 / 6 := by
    rw [div_sub_div _ _ (by linarith) (by linarith), abs_div, abs_of_pos (show 0 < P * Real.pi by positivity), one_mul, mul_one, abs_sub_comm]
    exact div_le_div₀ (by norm_num) hPe (by norm_num) (by nlinarith)
  exact (add_le_add_left e3 _).trans (by norm_num)

/-- C251 (part): the same for the Cauchy distribution function -/
theorem C251_cauchy_partial {a b : F64} {m s : ℝ} {d : Cauchy} (h : Cauchy.new a b = .ok d) (fa : IsF64 a) (ha : a.Is m)
    (hb : b.Is s) : AccurateCDF d.cdf (cauchyCDF m s) {r | ¬ FP.huge (FP.rnd (r - m))} (1 / 2 ^ 47) := by
  obtain ⟨h0, rfl⟩ := Cauchy.new_ok.1 h
  intro x r fx hx hr
  have hz := zscore hx ha hb (pos_of_lt h0 hb) (fx r hx).1 (fa m ha).1 hr
  have h1 := zed_atan hz
  set z := (r - m) / s
  have h3 := Real.pi_gt_three
  have b1 : |Real.arctan z| ≤ 2 := by
    rw [abs_le]
    have := Real.arctan_lt_pi_div_two z; have := Real.neg_pi_div_two_lt_arctan z; have := Real.pi_le_four
    constructor <;> linarith
  have b2 : |1 / Real.pi| ≤ 1 / 3 := by
    rw [abs_of_pos (by positivity)]; exact one_div_le_one_div_of_le (by norm_num) h3.le
  have h2 := Within.mul (ρ := 1 / 2 ^ 48) (1 / 3) 2 one_over_pi_within h1 b2 b1 (by norm_num) (by norm_num)
  have b3 : |1 / Real.pi * Real.arctan z + 1 / 2| ≤ 2 := by
    have e1 := abs_add_le (1 / Real.pi * Real.arctan z) (1 / 2)
    rw [abs_mul] at e1
    have e2 : |1 / Real.pi| * |Real.arctan z| ≤ 1 / 3 * 2 := by gcongr
    have e3 : |(1:ℝ) / 2| = 1 / 2 := abs_of_pos (by norm_num)
    linarith
  have h4 := Within.add (ρ := 1 / 2 ^ 47) 2 h2 (Within.exact (Is.fin (1 / 2))) b3 (by norm_num) (by norm_num)
  have : cauchyCDF m s r = 1 / Real.pi * Real.arctan z + 1 / 2 := by unfold cauchyCDF; ring
  rw [this]; exact h4

variable [FP.SpecialFns]

/-- C251: the normal distribution function (second parameter: the variance) is within 2^-47 of the real one at every f64, for every
finite mean and variance: where `x - mu` overflows, `x` is at least 2^500 standard deviations away -/
theorem C251_normal {a b : F64} {m v : ℝ} {d : UvNormal} (h : UvNormal.new a b = .ok d) (fa : IsF64 a) (ha : a.Is m)
    (fb : IsF64 b) (hb : b.Is v) : AccurateCDF d.cdf (fun x => Phi ((x - m) / √v)) Set.univ (1 / 2 ^ 47) := by
  obtain ⟨h0, rfl⟩ := UvNormal.new_ok.1 h
  intro x r fx hx _
  have hv := pos_of_lt h0 hb
  have acc := FP.Accurate.sqrt_acc v (fb v hb).1 hv.le
  have sv : 0 < √v := Real.sqrt_pos.2 hv
  set S := FP.rnd (√v)
  have hS : 0 < S := by
    have := (abs_le.1 acc).1
    have : √v / 2 ^ 53 ≤ √v / 2 := by gcongr; norm_num
    linarith
  have nh : ¬ FP.huge S := by
    rcases le_total 1 v with h1 | h1
    · intro hh
      refine (fb v hb).2 (FP.Lawful.huge_mono S v ?_ hh)
      have h2 : √v ≤ v := Real.sqrt_le_iff.2 ⟨hv.le, by nlinarith⟩
      have h3 := FP.Lawful.rnd_mono h2
      rw [(fb v hb).1] at h3
      rw [abs_of_pos hS, abs_of_pos hv]; exact h3
    · refine FP.Lawful.not_huge _ ?_
      have h2 : √v ≤ 1 := Real.sqrt_le_one.2 h1
      have h3 := FP.Lawful.rnd_mono h2
      rw [F64.rnd_one] at h3
      rw [abs_of_pos hS]; exact h3.trans (one_le_pow₀ (by norm_num))
  have hbS : b.sqrt.Is S := by
    rw [hb.eq_fin hv.ne']
    unfold F64.sqrt
    dsimp only
    rw [if_neg (not_lt.2 hv.le)]
    exact round_is nh
  have hz : Zed ((x - a) / b.sqrt) ((r - m) / S) := by
    by_cases hr : FP.huge (FP.rnd (r - m))
    · have hw := huge_big hr
      have hvD : v < |FP.rnd (r - m)| := by
        by_contra hc
        push Not at hc
        exact (fb v hb).2 (FP.Lawful.huge_mono _ v (hc.trans (le_abs_self v)) hr)
      have hD2 : |FP.rnd (r - m)| ≤ 2 * |r - m| := by
        have e := FP.Accurate.sub_acc r m (fx r hx).1 (fa m ha).1
        have := abs_add_le (FP.rnd (r - m) - (r - m)) (r - m)
        rw [sub_add_cancel] at this
        have : |r - m| / 2 ^ 53 ≤ |r - m| := div_le_self (abs_nonneg _) (one_le_pow₀ (by norm_num))
        linarith only [this, e, ‹|FP.rnd (r - m)| ≤ _›]
      have hS2 : S ≤ 2 * √v := by
        have := (abs_le.1 acc).2
        have : √v / 2 ^ 53 ≤ √v := div_le_self sv.le (one_le_pow₀ (by norm_num))
        linarith only [this, (abs_le.1 acc).2]
      have key : 2 ^ 500 ≤ |r - m| / S := by
        rw [le_div_iff₀ hS]
        refine abs_le_of_sq_le_sq' (a := 2 ^ 500 * S) ?_ (abs_nonneg _) |>.2
        have h1 : S ^ 2 ≤ 8 * |r - m| := by
          have h2 : S ^ 2 ≤ (2 * √v) ^ 2 := pow_le_pow_left₀ hS.le hS2 2
          rw [mul_pow, Real.sq_sqrt hv.le] at h2
          linarith only [h2, hvD, hD2]
        have h3 : (2 ^ 500) ^ 2 * 8 ≤ |r - m| := by
          refine le_trans ?_ hw
          rw [← pow_mul, show (8:ℝ) = 2 ^ 3 by norm_num, ← pow_add]
          exact pow_le_pow_right₀ (by norm_num) (by norm_num)
        rw [mul_pow]
        have hA : (0:ℝ) ≤ (2 ^ 500) ^ 2 := by positivity
        generalize ((2:ℝ) ^ 500) ^ 2 = A at *
        calc A * S ^ 2 ≤ A * (8 * |r - m|) := by gcongr
          _ = (A * 8) * |r - m| := by ring
          _ ≤ |r - m| * |r - m| := by gcongr
          _ = |r - m| ^ 2 := by ring
      have e := add_ext hx ha.neg
      rw [← sub_eq_add_neg, F64.round, if_pos hr] at e
      rw [hbS.eq_fin hS.ne']
      by_cases h0 : 0 < r - m
      · right; left
        rw [if_pos h0] at e
        have e2 : x - a = pinf := by
          change x + -a = pinf
          cases h : x + -a <;> rw [h] at e <;> simp_all
        rw [e2, pinf_div_const hS]
        rw [abs_of_pos h0] at key
        exact ⟨rfl, key⟩
      · right; right
        rw [if_neg h0] at e
        have e2 : x - a = ninf := by
          change x + -a = ninf
          cases h : x + -a <;> rw [h] at e <;> simp_all
        rw [e2, ninf_div_const hS]
        rw [abs_of_nonpos (not_lt.1 h0), neg_div] at key
        exact ⟨rfl, by generalize (2:ℝ) ^ 500 = M at *; linarith only [key]⟩
    · exact zscore hx ha hbS hS (fx r hx).1 (fa m ha).1 hr
  have hw := zed_norm hz
  have h2 : |(r - m) / S - (r - m) / √v| ≤ |(r - m) / √v| / 2 ^ 51 + 1 / 2 ^ 120 := by
    have e : (r - m) / S - (r - m) / √v = (r - m) / √v * ((√v - S) / S) := by field_simp
    rw [e, abs_mul, abs_div (√v - S), abs_of_pos hS, abs_sub_comm]
    have h3 : |S - √v| / S ≤ 1 / 2 ^ 51 := by
      rw [div_le_iff₀ hS]
      refine acc.trans ?_
      have := (abs_le.1 acc).1
      have h5 : √v / 2 ^ 53 ≤ √v / 2 := by gcongr; norm_num
      generalize √v = w at *
      norm_num at *; linarith
    have h4 := mul_le_mul_of_nonneg_left h3 (abs_nonneg ((r - m) / √v))
    rw [mul_one_div] at h4
    have : (0:ℝ) ≤ 1 / 2 ^ 120 := by positivity
    linarith
  have hm := mvt_rel Spec.Phi_hasDerivAt h2 (fun x _ => phi_C x) (fun x _ => phi_D x)
  have hfin : Within ((x - a) / b.sqrt).norm (Phi ((r - m) / √v)) (1 / 2 ^ 47) := hw.shift ((add_le_add_left hm _).trans (by norm_num))
  rcases hx with rfl | ⟨rfl, _⟩ <;> exact hfin
end
end Rstat
