import Verif.Float.Accuracy

/-! Accuracy contract of the trigonometric functions (C270): before the final rounding `sin` and `cos` are within 2^-52 absolutely, `asin` within
2^-52 relatively on `[-1, 1]`. Exact arithmetic and correctly rounded binary64 are instances. -/
namespace Rstat

/-- accurate trigonometric functions -/
class FP.AccurateTrig [FP] : Prop where
  sin_acc : ∀ x, |FP.fsin x - Real.sin x| ≤ 1 / 2 ^ 52
  cos_acc : ∀ x, |FP.fcos x - Real.cos x| ≤ 1 / 2 ^ 52
  asin_acc : ∀ x, -1 ≤ x → x ≤ 1 → |FP.fasin x - Real.arcsin x| ≤ |Real.arcsin x| / 2 ^ 52

instance exactTrig [FP] [FP.Exact] : FP.AccurateTrig where
  sin_acc x := by rw [FP.Exact.sin_eq, sub_self, abs_zero]; positivity
  cos_acc x := by rw [FP.Exact.cos_eq, sub_self, abs_zero]; positivity
  asin_acc x _ _ := by rw [FP.Exact.asin_eq, sub_self, abs_zero]; positivity

section
attribute [local instance] binary64

/-- correctly rounded binary64 meets the contract -/
theorem B64.trig : FP.AccurateTrig where
  sin_acc x := by change |Real.sin x - Real.sin x| ≤ _; rw [sub_self, abs_zero]; positivity
  cos_acc x := by change |Real.cos x - Real.cos x| ≤ _; rw [sub_self, abs_zero]; positivity
  asin_acc x _ _ := by change |Real.arcsin x - Real.arcsin x| ≤ _; rw [sub_self, abs_zero]; positivity
end

end Rstat
