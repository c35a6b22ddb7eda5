import Verif.Lemmas.Consts
import Verif.Lemmas.Constraints
import Verif.Lemmas.Positive
import Verif.Lemmas.Moments
import Verif.Spec.Families
import Verif.Float.ExactInst

/-! Common imports and small facts for the distribution files. -/
namespace Rstat
open F64
theorem exc_ok_bind {ε α β : Type} (a : α) (f : α → Except ε β) : (Except.ok a >>= f) = f a := rfl
theorem exc_err_bind {ε α β : Type} (e : ε) (f : α → Except ε β) : ((Except.error e : Except ε α) >>= f) = .error e := rfl

theorem ninf_lt {a : F64} {l : ℝ} (ha : a.Is l) : (ninf : F64) < a := ⟨⊥, l, rfl, ha.ext_eq, EReal.bot_lt_coe l⟩
theorem ninf_le {a : F64} {l : ℝ} (ha : a.Is l) : (ninf : F64) ≤ a := ⟨⊥, l, rfl, ha.ext_eq, bot_le⟩
theorem lt_pinf {a : F64} {l : ℝ} (ha : a.Is l) : a < (pinf : F64) := ⟨l, ⊤, ha.ext_eq, rfl, EReal.coe_lt_top l⟩
theorem le_pinf {a : F64} {l : ℝ} (ha : a.Is l) : a ≤ (pinf : F64) := ⟨l, ⊤, ha.ext_eq, rfl, le_top⟩
theorem not_pinf_lt {a : F64} : ¬ (pinf : F64) < a := by
  rintro ⟨x, y, hx, hy, hxy⟩
  cases hx; exact not_top_lt hxy
theorem not_pinf_le {a : F64} {l : ℝ} (ha : a.Is l) : ¬ (pinf : F64) ≤ a := by
  rintro ⟨x, y, hx, hy, hxy⟩
  cases hx; rw [ha.ext_eq] at hy; cases hy
  exact absurd hxy (not_le.2 (EReal.coe_lt_top l))
theorem not_lt_ninf {a : F64} : ¬ a < (ninf : F64) := by
  rintro ⟨x, y, hx, hy, hxy⟩
  cases hy; exact not_lt_bot hxy
theorem not_le_ninf {a : F64} {l : ℝ} (ha : a.Is l) : ¬ a ≤ (ninf : F64) := by
  rintro ⟨x, y, hx, hy, hxy⟩
  cases hy; rw [ha.ext_eq] at hx; cases hx
  exact absurd hxy (not_le.2 (EReal.bot_lt_coe l))
theorem not_nan_lt {a : F64} : ¬ (nan : F64) < a := by rintro ⟨x, y, hx, _⟩; cases hx
theorem not_lt_nan {a : F64} : ¬ a < (nan : F64) := by rintro ⟨x, y, _, hx, _⟩; cases hx
theorem not_nan_le {a : F64} : ¬ (nan : F64) ≤ a := by rintro ⟨x, y, hx, _⟩; cases hx
theorem not_le_nan {a : F64} : ¬ a ≤ (nan : F64) := by rintro ⟨x, y, _, hx, _⟩; cases hx

/-! special values -/
theorem sqrt_neg_nan [FP] {a : F64} {r : ℝ} (h : a.Is r) (hr : r < 0) : a.sqrt = nan := by
  rw [h.eq_fin hr.ne]; exact if_pos hr
theorem asin_gt_nan [FP] {a : F64} {r : ℝ} (h : a.Is r) (hr : 1 < r) : a.asin = nan := by
  rw [h.eq_fin (by linarith)]; exact if_pos (Or.inr hr)
theorem ln_neg_nan [FP] {a : F64} {r : ℝ} (h : a.Is r) (hr : r < 0) : a.ln = nan := by
  rw [h.eq_fin hr.ne]; exact (if_neg hr.ne).trans (if_pos hr)
theorem ln_zero [FP] {a : F64} (h : a.Is 0) : a.ln = ninf := by
  rcases h with rfl | ⟨rfl, _⟩
  · exact if_pos rfl
  · rfl
theorem mul_nan [FP] (a : F64) : a * nan = nan := by
  show F64.mul a nan = nan
  unfold F64.mul; cases a <;> rfl
theorem nan_mul [FP] (a : F64) : nan * a = nan := rfl
theorem nan_add [FP] (a : F64) : nan + a = nan := rfl
theorem add_nan [FP] (a : F64) : a + nan = nan := by
  show F64.add a nan = nan
  unfold F64.add; cases a <;> rfl
theorem nan_div [FP] (a : F64) : nan / a = nan := rfl
theorem div_nan [FP] (a : F64) : a / nan = nan := by
  show F64.div a nan = nan
  unfold F64.div; cases a <;> rfl
theorem not_isValid_nan : ¬ (Probability.newUnchecked nan).isValid := fun h => F64.not_nan_le _ h.1
end Rstat

namespace Rstat
open F64
section
variable [FP] [FP.Exact]
/-- `powf` with a negative base -/
theorem powf_neg_base {a b : F64} {r s : ℝ} (ha : a.Is r) (hb : b.Is s) (hr : r < 0) (hs : s ≠ 0) :
    (¬ isInt s → a.powf b = nan) ∧ (isInt s → isOdd s → (a.powf b).Is (-(-r) ^ s)) ∧
    (isInt s → ¬ isOdd s → (a.powf b).Is ((-r) ^ s)) := by
  rw [ha.eq_fin hr.ne, hb.eq_fin hs]
  have e1 : ¬ ((fin s).isFinite ∧ (fin s).toReal = 0) := fun h => hs h.2
  have e2 : ¬ ((fin r).isFinite ∧ (fin r).toReal = 1) := fun h => by
    have h2 : r = 1 := h.2
    linarith
  unfold F64.powf
  simp only [e1, e2, if_false]
  have e3 : ¬ (fin r).toReal = 0 := hr.ne
  have e4 : (fin r).toReal < 0 := hr
  simp only [e3, e4, if_false, if_true]
  refine ⟨fun h => ?_, fun h h' => ?_, fun h h' => ?_⟩
  · have h1 : ¬ isInt (fin s).toReal := h
    simp only [h1, if_false]
  · have h1 : isInt (fin s).toReal := h
    have h2 : isOdd (fin s).toReal := h'
    simp only [h1, h2, if_true, FP.Exact.pow_eq]
    exact Is.round _
  · have h1 : isInt (fin s).toReal := h
    have h2 : ¬ isOdd (fin s).toReal := h'
    simp only [h1, h2, if_true, if_false, FP.Exact.pow_eq]
    exact Is.round _
theorem exp_nan : (nan : F64).exp = nan := rfl
theorem neg_nan : -(nan : F64) = nan := rfl
end
end Rstat
