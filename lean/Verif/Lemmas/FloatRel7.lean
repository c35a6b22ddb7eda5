import Verif.Lemmas.FloatRel6
import Verif.Lemmas.Transfer
import Mathlib.NumberTheory.Harmonic.EulerMascheroni

/-! Absolute forward error of logarithms, and the accuracy contract of the digamma function at 1 (used for entropies). -/
set_option linter.unusedSectionVars false
namespace Rstat
open F64 Spec Consts Real

/-- accurate digamma at one: the code uses `-digamma(1)` for the Euler-Mascheroni constant -/
class FP.AccurateEuler [FP] : Prop where
  digamma_one : ∃ y : ℝ, (FP.sDigamma (1 : F64)).Is y ∧ |y + Real.eulerMascheroniConstant| ≤ 1 / 2 ^ 50

theorem euler_bounds : 1 / 2 < Real.eulerMascheroniConstant ∧ Real.eulerMascheroniConstant < 2 / 3 :=
  ⟨Real.one_half_lt_eulerMascheroniConstant, Real.eulerMascheroniConstant_lt_two_thirds⟩

instance exactEuler [FP] [FP.Exact] : FP.AccurateEuler where
  digamma_one := ⟨_, FP.Exact.digamma_eq Is.one one_pos, by rw [digamma_one, neg_add_cancel, abs_zero]; positivity⟩

section
variable [FP] [FP.Lawful] [FP.Libm] [FP.Accurate] {a e : F64} {s p : ℝ} {j k m n : ℕ}

theorem log_size (h1 : 1 / 2 ^ k ≤ s) (h2 : s ≤ 2 ^ k) : |Real.log s| ≤ k := by
  have s0 : 0 < s := lt_of_lt_of_le (by positivity) h1
  have l2 : Real.log 2 ≤ 1 := by have := Real.log_two_lt_d9; linarith
  have l0 : 0 < Real.log 2 := Real.log_pos (by norm_num)
  have u := Real.log_le_log s0 h2
  have v := Real.log_le_log (by positivity) h1
  rw [Real.log_pow] at u
  rw [one_div, Real.log_inv, Real.log_pow] at v
  have : (k:ℝ) * Real.log 2 ≤ k * 1 := by gcongr
  rw [abs_le]; constructor <;> linarith

namespace Rel

/-- logarithms in absolute error -/
theorem ln_abs (ha : Rel a s k n) (s0 : 0 < s) (hk : k ≤ 1000) (hn : n ≤ 1000000) :
    |Real.log s| ≤ k ∧ Within a.ln (Real.log s) (((2 * n + 2 * k + 3 : ℕ) : ℝ) / 2 ^ 52) := by
  obtain ⟨a1, a2, x, hx, hxe⟩ := ha
  rw [abs_of_pos s0] at hxe a1 a2
  have lk := log_size a1 a2
  refine ⟨lk, ?_⟩
  obtain ⟨x0, hl⟩ := log_pert_eta s0 (by positivity) (unit_small hn) hxe
  have hk' : (k:ℝ) ≤ 1000 := by exact_mod_cast hk
  have hn' : (n:ℝ) ≤ 1000000 := by exact_mod_cast hn
  have cn := unit_small hn
  have lx : |Real.log x| ≤ k + 1 := by
    have t := abs_add_le (Real.log x - Real.log s) (Real.log s)
    rw [sub_add_cancel] at t
    linarith
  have acc := FP.Accurate.ln_acc x x0
  have t := abs_add_le (FP.fln x - Real.log x) (Real.log x - Real.log s)
  rw [sub_add_sub_cancel] at t
  have e : a.ln = F64.round (FP.fln x) := by
    rw [hx.eq_fin x0.ne']
    unfold F64.ln F64.logWith
    dsimp only
    rw [if_neg (not_lt.2 x0.le), if_neg x0.ne']
  rw [e]
  have q : |Real.log x| / 2 ^ 52 ≤ (k + 1) / 2 ^ 52 := by gcongr
  have t' : |FP.fln x - Real.log s| ≤ (2 * n + k + 1) / 2 ^ 52 := by
    have : ((2:ℝ) * n + k + 1) / 2 ^ 52 = (k + 1) / 2 ^ 52 + 2 * (n / 2 ^ 52) := by ring
    rw [this]; linarith
  refine Within.round t' lk ?_ ?_
  · push_cast
    have : (1:ℝ) / 2 ^ 120 ≤ 1 / 4 / 2 ^ 52 := by norm_num
    have k0 : (0:ℝ) ≤ k := by positivity
    have n0 : (0:ℝ) ≤ n := by positivity
    norm_num at this ⊢
    linarith
  · have : ((2:ℝ) * n + k + 1) / 2 ^ 52 ≤ 2 := by rw [div_le_iff₀ (by positivity)]; norm_num; linarith
    refine le_trans (b := 1002) (by linarith) (by norm_num)

theorem within (ha : Rel a s k n) (B : ℝ) (hB : |s| ≤ B) : Within a s (n / 2 ^ 52 * B) := by
  obtain ⟨_, _, x, hx, hxe⟩ := ha
  exact ⟨x, hx, hxe.trans (by gcongr)⟩

end Rel

/-- division by an exact number at least one -/
theorem Within.div_const {a b : F64} {t q ε ρ : ℝ} (M : ℝ) (ha : Within a t ε) (hb : b.Is q) (hq : 1 ≤ q) (hM : |t| ≤ M)
    (hr : ε + (M + ε) / 2 ^ 53 + 1 / 2 ^ 120 ≤ ρ) (hs : M + ε ≤ 2 ^ 200) : Within (a / b) (t / q) ρ := by
  obtain ⟨y, y1, y2⟩ := ha
  have q0 : 0 < q := by linarith
  have h : |y / q - t / q| ≤ ε := by
    rw [← sub_div, abs_div, abs_of_pos q0]
    exact (div_le_self (abs_nonneg _) hq).trans y2
  have hM' : |t / q| ≤ M := by
    rw [abs_div, abs_of_pos q0]
    exact (div_le_self (abs_nonneg _) hq).trans hM
  exact ⟨_, div_is y1 hb q0.ne' (Within.huge_ok (Within.size h hM') hs), Within.rnd h hM' hr⟩

theorem euler_within [FP.AccurateEuler] : Within (-(F64.digamma 1)) Real.eulerMascheroniConstant (1 / 2 ^ 50) := by
  obtain ⟨y, h1, h2⟩ := FP.AccurateEuler.digamma_one
  refine ⟨-y, Is.neg h1, ?_⟩
  rw [show -y - Real.eulerMascheroniConstant = -(y + Real.eulerMascheroniConstant) by ring, abs_neg]
  exact h2
end

section
open B64
attribute [local instance] binary64 binary64_lawful B64.libm B64.specialFns B64.accurate

/-- binary64 with a correctly rounded digamma function -/
instance B64.euler : FP.AccurateEuler where
  digamma_one := by
    obtain ⟨e1, e2⟩ := euler_bounds
    have r : FP.sDigamma (1 : F64) = F64.round (Spec.digamma 1) := by
      show B64.special .nan .pinf Spec.digamma 1 = _
      rfl
    rw [r, digamma_one]
    have hb : |-Real.eulerMascheroniConstant| ≤ 1 := by rw [abs_neg, abs_of_pos (by linarith)]; linarith
    obtain ⟨y, h1, h2⟩ := Within.round (x := -Real.eulerMascheroniConstant) (t := -Real.eulerMascheroniConstant) (ε := 0) (M := 1) (ρ := 1 / 2 ^ 50)
      (by rw [sub_self, abs_zero]) hb (by norm_num) (by norm_num)
    exact ⟨y, h1, by rwa [sub_neg_eq_add] at h2⟩
end
end Rstat
