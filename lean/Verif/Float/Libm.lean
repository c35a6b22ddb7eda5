import Verif.Float.Lemmas

/-! Contracts on the elementary (`libm`) and special (`special_fun`, cephes) functions used by the floating-point
theorems.  `FP.Lawful` only speaks of correctly rounded `+ - * / sqrt`; these classes add the qualitative facts about the
library routines: monotonicity and exact values at the special points.  No accuracy is assumed. -/
namespace Rstat

/-- the elementary functions are monotone and exact at the obvious points -/
class FP.Libm [FP] : Prop where
  exp_mono : Monotone FP.fexp
  exp_zero : FP.fexp 0 = 1
  exp_nonneg : ∀ x, 0 ≤ FP.fexp x
  ln_mono : ∀ x y, 0 < x → x ≤ y → FP.fln x ≤ FP.fln y
  ln_one : FP.fln 1 = 0
  pow_mono : ∀ x y s, 0 < x → x ≤ y → 0 < s → FP.fpow x s ≤ FP.fpow y s
  pow_anti : ∀ x y s, 0 < x → x ≤ y → s < 0 → FP.fpow y s ≤ FP.fpow x s
  pow_one : ∀ s, FP.fpow 1 s = 1
  pow_nonneg : ∀ x s, 0 < x → 0 ≤ FP.fpow x s
  atan_mono : Monotone FP.fatan
  atan_zero : FP.fatan 0 = 0
  atan_le : ∀ x, FP.fatan x ≤ Real.pi / 2
  atan_ge : ∀ x, -(Real.pi / 2) ≤ FP.fatan x
  asin_mono : ∀ x y, -1 ≤ x → x ≤ y → y ≤ 1 → FP.fasin x ≤ FP.fasin y
  asin_zero : FP.fasin 0 = 0
  asin_one : FP.fasin 1 = Real.pi / 2

/-- exact arithmetic satisfies the contract -/
instance exactLibm [FP] [FP.Exact] : FP.Libm where
  exp_mono := by
    have : FP.fexp = Real.exp := funext FP.Exact.exp_eq
    rw [this]; exact Real.exp_monotone
  exp_zero := by rw [FP.Exact.exp_eq, Real.exp_zero]
  exp_nonneg x := by rw [FP.Exact.exp_eq]; exact (Real.exp_pos x).le
  ln_mono x y hx h := by rw [FP.Exact.ln_eq, FP.Exact.ln_eq]; exact Real.log_le_log hx h
  ln_one := by rw [FP.Exact.ln_eq, Real.log_one]
  pow_mono x y s hx h hs := by rw [FP.Exact.pow_eq, FP.Exact.pow_eq]; exact Real.rpow_le_rpow hx.le h hs.le
  pow_anti x y s hx h hs := by
    rw [FP.Exact.pow_eq, FP.Exact.pow_eq]; exact Real.rpow_le_rpow_of_nonpos hx h hs.le
  pow_one s := by rw [FP.Exact.pow_eq, Real.one_rpow]
  pow_nonneg x s hx := by rw [FP.Exact.pow_eq]; exact (Real.rpow_pos_of_pos hx s).le
  atan_mono := by
    have : FP.fatan = Real.arctan := funext FP.Exact.atan_eq
    rw [this]; exact Real.arctan_strictMono.monotone
  atan_zero := by rw [FP.Exact.atan_eq, Real.arctan_zero]
  atan_le x := by rw [FP.Exact.atan_eq]; exact (Real.arctan_lt_pi_div_two x).le
  atan_ge x := by rw [FP.Exact.atan_eq]; exact (Real.neg_pi_div_two_lt_arctan x).le
  asin_mono x y _ h _ := by rw [FP.Exact.asin_eq, FP.Exact.asin_eq]; exact Real.monotone_arcsin h
  asin_zero := by rw [FP.Exact.asin_eq, Real.arcsin_zero]
  asin_one := by rw [FP.Exact.asin_eq, Real.arcsin_one]

/-- the special functions are monotone and exact at the ends of their ranges -/
class FP.SpecialFns [FP] : Prop where
  norm_mono : ∀ a b : F64, a ≤ b → FP.sNorm a ≤ FP.sNorm b
  norm_bot : (FP.sNorm .ninf).Is 0
  norm_top : (FP.sNorm .pinf).Is 1
  erf_mono : ∀ a b : F64, a ≤ b → FP.sErf a ≤ FP.sErf b
  erf_top : (FP.sErf .pinf).Is 1
  erf_odd : ∀ (a : F64) (r : ℝ), (FP.sErf a).Is r → (FP.sErf (-a)).Is (-r)
  erfc_anti : ∀ a b : F64, a ≤ b → FP.sErfc b ≤ FP.sErfc a
  erfc_zero : ∀ a : F64, a.Is 0 → (FP.sErfc a).Is 1
  erfc_top : (FP.sErfc .pinf).Is 0
  gammainc_mono : ∀ (k a b : F64) (r : ℝ), k.Is r → 0 < r → 0 ≤ a → a ≤ b → FP.sGammainc k a ≤ FP.sGammainc k b
  gammainc_zero : ∀ (k a : F64) (r : ℝ), k.Is r → 0 < r → a.Is 0 → (FP.sGammainc k a).Is 0
  gammainc_top : ∀ (k : F64) (r : ℝ), k.Is r → 0 < r → (FP.sGammainc k .pinf).Is 1
  betainc_mono : ∀ (x y a b : F64) (r s : ℝ), a.Is r → b.Is s → 0 < r → 0 < s → 0 ≤ x → x ≤ y → y ≤ 1 →
    FP.sBetainc x a b ≤ FP.sBetainc y a b
  betainc_zero : ∀ (x a b : F64) (r s : ℝ), a.Is r → b.Is s → 0 < r → 0 < s → x.Is 0 → (FP.sBetainc x a b).Is 0
  betainc_one : ∀ (x a b : F64) (r s : ℝ), a.Is r → b.Is s → 0 < r → 0 < s → x.Is 1 → (FP.sBetainc x a b).Is 1

end Rstat
