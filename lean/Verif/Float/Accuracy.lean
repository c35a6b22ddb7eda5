import Verif.Float.Libm
import Verif.Float.Binary64
import Verif.Lemmas.B64Eval
import Verif.Lemmas.Gaussian
import Verif.Spec.Special

/-! Accuracy contract of the elementary functions, used by the forward error bounds (C251): before the final rounding `exp`, `ln`, `atan`
and `powf` are within one unit in the last place, relative error 2^-52 (glibc, musl and the other usual libms document less), and the
difference of two representable numbers has no underflow error (gradual underflow). Exact arithmetic and correctly rounded binary64 are instances. -/
namespace Rstat

/-- accurate elementary functions and gradual underflow -/
class FP.Accurate [FP] : Prop where
  exp_acc : ∀ x, |FP.fexp x - Real.exp x| ≤ Real.exp x / 2 ^ 52
  ln_acc : ∀ x, 0 < x → |FP.fln x - Real.log x| ≤ |Real.log x| / 2 ^ 52
  atan_acc : ∀ x, |FP.fatan x - Real.arctan x| ≤ |Real.arctan x| / 2 ^ 52
  pow_acc : ∀ x s, 0 < x → |FP.fpow x s - x ^ s| ≤ x ^ s / 2 ^ 52
  sub_acc : ∀ r s, FP.rnd r = r → FP.rnd s = s → |FP.rnd (r - s) - (r - s)| ≤ |r - s| / 2 ^ 53
  sqrt_acc : ∀ r, FP.rnd r = r → 0 ≤ r → |FP.rnd (√r) - √r| ≤ √r / 2 ^ 53
  norm_acc : ∀ {a : F64} {x : ℝ}, a.Is x → ∃ p, (FP.sNorm a).Is p ∧ |p - Spec.Phi x| ≤ 1 / 2 ^ 48

instance exactAccurate [FP] [FP.Exact] : FP.Accurate where
  exp_acc x := by rw [FP.Exact.exp_eq, sub_self, abs_zero]; positivity
  ln_acc x _ := by rw [FP.Exact.ln_eq, sub_self, abs_zero]; positivity
  atan_acc x := by rw [FP.Exact.atan_eq, sub_self, abs_zero]; positivity
  pow_acc x s h := by rw [FP.Exact.pow_eq, sub_self, abs_zero]; have := (Real.rpow_pos_of_pos h s).le; positivity
  sub_acc r s _ _ := by rw [FP.Exact.rnd_id, sub_self, abs_zero]; positivity
  sqrt_acc r _ _ := by rw [FP.Exact.rnd_id, sub_self, abs_zero]; positivity
  norm_acc h := ⟨_, FP.Exact.norm_eq h, by rw [sub_self, abs_zero]; positivity⟩

namespace B64

/-- representable numbers are multiples of the least subnormal -/
theorem repr_multiple {r : ℝ} (h : rnd r = r) : ∃ k : ℤ, r = k * 2 ^ (-1074 : ℤ) := by
  have hu := ulpExp_ge r
  refine ⟨rne (r / 2 ^ ulpExp r) * 2 ^ (ulpExp r + 1074).toNat, ?_⟩
  have e : ((2:ℝ) ^ ulpExp r) = 2 ^ (ulpExp r + 1074).toNat * 2 ^ (-1074 : ℤ) := by
    rw [← zpow_natCast, ← zpow_add₀ (by norm_num), Int.toNat_of_nonneg (by linarith)]; congr 1; ring
  conv_lhs => rw [← h]
  unfold rnd
  rw [e]; push_cast; ring

/-- the difference of two representable numbers has no underflow error -/
theorem sub_acc {r s : ℝ} (hr : rnd r = r) (hs : rnd s = s) : |rnd (r - s) - (r - s)| ≤ |r - s| / 2 ^ 53 := by
  rcases le_or_gt ((2:ℝ) ^ (-1022:ℤ)) |r - s| with h | h
  · exact rnd_err_normal h
  · obtain ⟨k, hk⟩ := repr_multiple hr
    obtain ⟨l, hl⟩ := repr_multiple hs
    have e : r - s = ((k - l : ℤ) : ℝ) * 2 ^ (-1074 : ℤ) := by rw [hk, hl]; push_cast; ring
    have hm : |k - l| ≤ 2 ^ 53 := by
      rw [e, abs_mul, abs_of_pos (two_zpow_pos _)] at h
      have h2 : (2:ℝ) ^ (-1022 : ℤ) = 2 ^ 52 * 2 ^ (-1074 : ℤ) := by
        rw [← zpow_natCast, ← zpow_add₀ (by norm_num)]; norm_num
      rw [h2] at h
      have h3 := lt_of_mul_lt_mul_right h (two_zpow_pos _).le
      have h4 : |k - l| < 2 ^ 52 := by exact_mod_cast h3
      linarith
    rw [e, rnd_repr (k - l) (-1074) hm le_rfl, sub_self, abs_zero]; positivity

/-- square roots of representable numbers are never subnormal -/
theorem sqrt_acc {r : ℝ} (hr : rnd r = r) (h0 : 0 ≤ r) : |rnd (√r) - √r| ≤ √r / 2 ^ 53 := by
  rcases h0.eq_or_lt with rfl | h0
  · rw [Real.sqrt_zero, rnd_zero]; simp
  have hge : (2:ℝ) ^ (-1074 : ℤ) ≤ r := by
    obtain ⟨k, hk⟩ := repr_multiple hr
    have : (0:ℝ) < k := by
      by_contra hc
      push Not at hc
      have := mul_nonpos_of_nonpos_of_nonneg hc (two_zpow_pos (-1074)).le
      rw [← hk] at this; linarith
    have h1 : (1:ℝ) ≤ k := by exact_mod_cast (by exact_mod_cast this : (0:ℤ) < k)
    rw [hk]; exact le_mul_of_one_le_left (two_zpow_pos _).le h1
  have h2 : (2:ℝ) ^ (-1022 : ℤ) ≤ √r := by
    apply Real.le_sqrt_of_sq_le
    refine le_trans ?_ hge
    rw [← zpow_natCast, ← zpow_mul]
    exact zpow_le_zpow_right₀ (by norm_num) (by norm_num)
  have := rnd_err_normal (x := √r) (by rwa [abs_of_nonneg (Real.sqrt_nonneg _)])
  rwa [abs_of_nonneg (Real.sqrt_nonneg _)] at this

end B64

/-- correctly rounded binary64 satisfies the accuracy contract -/
theorem B64.accurate : @FP.Accurate binary64 := by
  let _ := binary64
  refine { exp_acc := ?_, ln_acc := ?_, atan_acc := ?_, pow_acc := ?_, sub_acc := fun r s => B64.sub_acc,
           sqrt_acc := fun r => B64.sqrt_acc, norm_acc := ?_ }
  · intro x
    change |Real.exp x - Real.exp x| ≤ _
    rw [sub_self, abs_zero]; positivity
  · intro x _
    change |Real.log x - Real.log x| ≤ _
    rw [sub_self, abs_zero]; positivity
  · intro x
    change |Real.arctan x - Real.arctan x| ≤ _
    rw [sub_self, abs_zero]; positivity
  · intro x s h
    change |x ^ s - x ^ s| ≤ _
    rw [sub_self, abs_zero]; have := (Real.rpow_pos_of_pos h s).le; positivity
  · intro a x h
    have hp := Spec.Phi_mem x
    have e1 : |Spec.Phi x| ≤ 1 := by rw [abs_of_pos hp.1]; exact hp.2.le
    have e := B64.rnd_err (Spec.Phi x)
    have e2 : |B64.rnd (Spec.Phi x)| ≤ 2 := by
      have := abs_add_le (B64.rnd (Spec.Phi x) - Spec.Phi x) (Spec.Phi x)
      rw [sub_add_cancel] at this
      have t : (1:ℝ) / 2 ^ 1075 ≤ 1 / 2 := one_div_le_one_div_of_le (by norm_num) (by
        calc (2:ℝ) = 2 ^ 1 := by norm_num
          _ ≤ _ := pow_le_pow_right₀ (by norm_num) (by norm_num))
      have t2 : |Spec.Phi x| / 2 ^ 53 ≤ 1 / 2 := by
        refine (div_le_div_of_nonneg_right e1 (by positivity)).trans (by norm_num)
      generalize (1:ℝ) / 2 ^ 1075 = η at *
      linarith
    have hr := F64.round_is (r := Spec.Phi x) (B64.not_huge_small (by linarith : |B64.rnd (Spec.Phi x)| ≤ 10))
    refine ⟨B64.rnd (Spec.Phi x), ?_, ?_⟩
    · rcases h with rfl | ⟨rfl, rfl⟩
      · exact hr
      · exact hr
    · have t : (1:ℝ) / 2 ^ 1075 ≤ 1 / 2 ^ 53 := one_div_le_one_div_of_le (by norm_num) (pow_le_pow_right₀ (by norm_num) (by norm_num))
      have t2 : |Spec.Phi x| / 2 ^ 53 ≤ 1 / 2 ^ 53 := by gcongr
      refine e.trans ((add_le_add t2 t).trans (by norm_num))

end Rstat
