import Verif.Lemmas.Binary64
import Verif.Model.Consts
import Mathlib.Analysis.Real.Pi.Bounds

/-! Evaluation of concrete binary64 roundings, in particular of the constants built from π. -/
namespace Rstat
namespace B64

theorem rne_eq {y : ℝ} {m : ℤ} (h : |y - m| < 1 / 2) : rne y = m := by
  have h1 := rne_err y
  have h2 : |((rne y - m : ℤ) : ℝ)| < 1 := by
    push_cast
    calc |(rne y : ℝ) - m| = |((rne y : ℝ) - y) + (y - m)| := by ring_nf
      _ ≤ |(rne y : ℝ) - y| + |y - m| := abs_add_le _ _
      _ < 1 := by linarith
  rw [← Int.cast_abs] at h2
  have h3 : |rne y - m| < 1 := by exact_mod_cast h2
  have := Int.abs_lt_one_iff.1 h3
  omega

theorem ulpExp_eq {x : ℝ} (e : ℤ) (he : -1074 ≤ e) (h1 : (2:ℝ) ^ (e + 52) ≤ x) (h2 : x < 2 ^ (e + 53)) : ulpExp x = e := by
  have hx : 0 < x := lt_of_lt_of_le (two_zpow_pos _) h1
  have hlog : Int.log 2 |x| = e + 52 := by
    rw [abs_of_pos hx]
    apply le_antisymm
    · have h3 : Int.log 2 x < e + 53 := by
        rw [← Int.lt_zpow_iff_log_lt (by norm_num) hx]; exact_mod_cast h2
      omega
    · rw [← Int.zpow_le_iff_le_log (by norm_num) hx]; exact_mod_cast h1
  unfold ulpExp
  rw [hlog]
  rw [max_eq_left (by omega)]; ring

/-- evaluate a rounding: `x` in the binade of `e`, closer than half a unit to `m` units -/
theorem rnd_eq {x : ℝ} (m e : ℤ) (he : -1074 ≤ e) (h1 : (2:ℝ) ^ (e + 52) ≤ x) (h2 : x < 2 ^ (e + 53))
    (hm : |x / 2 ^ e - m| < 1 / 2) : rnd x = m * 2 ^ e := by
  unfold rnd
  rw [ulpExp_eq e he h1 h2, rne_eq hm]

/-- in the subnormal range -/
theorem rnd_eq_sub {x : ℝ} (m : ℤ) (h0 : 0 < x) (h2 : x < 2 ^ (-1022:ℤ)) (hm : |x / 2 ^ (-1074:ℤ) - m| < 1 / 2) :
    rnd x = m * 2 ^ (-1074:ℤ) := by
  have hu : ulpExp x = -1074 := by
    unfold ulpExp
    rw [abs_of_pos h0]
    have : Int.log 2 x < -1022 := by
      rw [← Int.lt_zpow_iff_log_lt (by norm_num) h0]; exact_mod_cast h2
    rw [max_eq_right (by omega)]
  unfold rnd; rw [hu, rne_eq hm]

/-- relative half-ulp error in the normal range -/
theorem rnd_err_normal {x : ℝ} (hx : (2:ℝ) ^ (-1022:ℤ) ≤ |x|) : |rnd x - x| ≤ |x| / 2 ^ 53 := by
  have hx0 : 0 < |x| := lt_of_lt_of_le (two_zpow_pos _) hx
  have h1 : |rnd x - x| ≤ 2 ^ ulpExp x / 2 := by
    have he := rne_err (x / 2 ^ ulpExp x)
    have hp := two_zpow_pos (ulpExp x)
    have : rnd x - x = ((rne (x / 2 ^ ulpExp x) : ℝ) - x / 2 ^ ulpExp x) * 2 ^ ulpExp x := by
      unfold rnd; field_simp
    rw [this, abs_mul, abs_of_pos hp]
    nlinarith
  refine h1.trans ?_
  have hl : -1022 ≤ Int.log 2 |x| := by
    rw [← Int.zpow_le_iff_le_log (by norm_num) hx0]; exact_mod_cast hx
  have hu : ulpExp x = Int.log 2 |x| - 52 := by unfold ulpExp; exact max_eq_left (by omega)
  have h' := Int.zpow_log_le_self (b := 2) (R := ℝ) (by norm_num) hx0
  push_cast at h'
  have : (2:ℝ) ^ ulpExp x / 2 = 2 ^ (Int.log 2 |x|) / 2 ^ 53 := by
    rw [hu, zpow_sub₀ (by norm_num)]
    have : (2:ℝ) ^ (52:ℤ) = 2 ^ 52 := by norm_cast
    rw [this, div_div]; norm_num
  rw [this]; gcongr

/-- results at most half an ulp above 1 round to at most 1 (ties to even) -/
theorem rnd_le_one' {x : ℝ} (h : x ≤ 1 + 1 / 2 ^ 53) : rnd x ≤ 1 := by
  have h1 := rnd_mono h
  have h2 : rnd (1 + 1 / 2 ^ 53) = 1 := by
    have hu : ulpExp (1 + 1 / 2 ^ 53) = -52 := ulpExp_eq (-52) (by norm_num) (by norm_num) (by norm_num)
    unfold rnd
    rw [hu]
    have e : ((1:ℝ) + 1 / 2 ^ 53) / 2 ^ (-52:ℤ) = ((2 ^ 52 : ℤ) : ℝ) + 1 / 2 := by
      rw [zpow_neg]; norm_num
    have hf : ⌊((2 ^ 52 : ℤ) : ℝ) + 1 / 2⌋ = 2 ^ 52 := by
      rw [Int.floor_eq_iff]; constructor <;> norm_num
    rw [e]
    unfold rne
    rw [hf]
    rw [if_neg (by norm_num), if_neg (by norm_num), if_pos (show Even ((2:ℤ) ^ 52) from ⟨2 ^ 51, by norm_num⟩)]
    rw [zpow_neg]; norm_num
  rw [h2] at h1; exact h1

theorem rnd_pi : rnd Real.pi = 884279719003555 / 281474976710656 := by
  have h1 := Real.pi_gt_d20
  have h2 := Real.pi_lt_d20
  have := rnd_eq (x := Real.pi) 7074237752028440 (-51) (by norm_num) (by norm_num; linarith) (by norm_num; linarith) (by
    rw [abs_lt, zpow_neg]; norm_num
    constructor <;> linarith)
  rw [this, zpow_neg]; norm_num

theorem rnd_pi_half : rnd (Real.pi / 2) = 884279719003555 / 562949953421312 := by
  have h1 := Real.pi_gt_d20
  have h2 := Real.pi_lt_d20
  have := rnd_eq (x := Real.pi / 2) 7074237752028440 (-52) (by norm_num) (by norm_num; linarith) (by norm_num; linarith) (by
    rw [abs_lt, zpow_neg]; norm_num
    constructor <;> linarith)
  rw [this, zpow_neg]; norm_num

/-- the f64 nearest to π is below π -/
theorem rnd_pi_lt : rnd Real.pi < Real.pi := by
  rw [rnd_pi]; have h1 := Real.pi_gt_d20; norm_num at h1 ⊢; linarith

theorem not_huge_small {y : ℝ} (h : |y| ≤ 10) : ¬ binary64.huge y := by
  have := binary64_lawful
  refine binary64_lawful.not_huge y (h.trans ?_)
  have h1 : (2:ℝ) ^ 4 ≤ 2 ^ 1023 := pow_le_pow_right₀ (by norm_num) (by norm_num)
  have h2 : (10:ℝ) ≤ 2 ^ 4 := by norm_num
  exact h2.trans h1

section
attribute [local instance] binary64 binary64_lawful
open F64 Consts

theorem round_eq {x v : ℝ} (h : rnd x = v) (hv : |v| ≤ 10) (h0 : v ≠ 0) : F64.round x = F64.fin v := by
  have : (F64.round x).Is v := by
    have h1 := round_is (r := x) (by show ¬ FP.huge (B64.rnd x); rw [h]; exact not_huge_small hv)
    exact h1.congr h
  exact this.eq_fin h0

theorem PI_eq : PI = fin (884279719003555 / 281474976710656) := by
  exact round_eq rnd_pi (by rw [abs_of_pos (by norm_num)]; norm_num) (by norm_num)

theorem one_over_pi_eq : ONE_OVER_PI = fin (5734161139222659 / 18014398509481984) := by
  unfold ONE_OVER_PI
  rw [PI_eq, div_finite Is.one (Is.fin _) (by norm_num), if_neg one_ne_zero]
  refine round_eq ?_ (by rw [abs_of_pos (by norm_num)]; norm_num) (by norm_num)
  have := rnd_eq (x := 1 / (884279719003555 / 281474976710656)) 5734161139222659 (-54) (by norm_num) (by norm_num)
    (by norm_num) (by rw [abs_lt, zpow_neg]; norm_num)
  rw [this, zpow_neg]; norm_num

theorem two_over_pi_eq : TWO_OVER_PI = fin (5734161139222659 / 9007199254740992) := by
  unfold TWO_OVER_PI
  rw [PI_eq, div_finite (Is.num 2) (Is.fin _) (by norm_num), if_neg two_ne_zero]
  refine round_eq ?_ (by rw [abs_of_pos (by norm_num)]; norm_num) (by norm_num)
  have := rnd_eq (x := 2 / (884279719003555 / 281474976710656)) 5734161139222659 (-53) (by norm_num) (by norm_num)
    (by norm_num) (by rw [abs_lt, zpow_neg]; norm_num)
  exact this.trans (by rw [zpow_neg]; norm_num)

theorem round_pi_half : F64.round (Real.pi / 2) = fin (884279719003555 / 562949953421312) :=
  round_eq rnd_pi_half (by rw [abs_of_pos (by norm_num)]; norm_num) (by norm_num)

/-- `FRAC_1_PI * fl(π/2) = 0.5` and `2/π * fl(π/2) = 1` in binary64 -/
theorem one_over_pi_mul : F64.round (5734161139222659 / 18014398509481984 * (884279719003555 / 562949953421312)) = fin (1 / 2) := by
  refine round_eq ?_ (by rw [abs_of_pos (by norm_num)]; norm_num) (by norm_num)
  have := rnd_eq (x := 5734161139222659 / 18014398509481984 * (884279719003555 / 562949953421312)) (2 ^ 52) (-53) (by norm_num)
    (by norm_num) (by norm_num) (by rw [abs_lt, zpow_neg]; norm_num)
  rw [this, zpow_neg]; norm_num

theorem two_over_pi_mul : F64.round (5734161139222659 / 9007199254740992 * (884279719003555 / 562949953421312)) = fin 1 := by
  refine round_eq ?_ (by rw [abs_of_pos (by norm_num)]; norm_num) (by norm_num)
  have := rnd_eq (x := 5734161139222659 / 9007199254740992 * (884279719003555 / 562949953421312)) (2 ^ 52) (-52) (by norm_num)
    (by norm_num) (by norm_num) (by rw [abs_lt, zpow_neg]; norm_num)
  rw [this, zpow_neg]; norm_num
end
end B64
end Rstat
