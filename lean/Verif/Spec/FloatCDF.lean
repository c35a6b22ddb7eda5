import Verif.Float.Core
import Verif.Model.Probability

/-! What a user of a `cdf` method relies on in floating point: it is a non-decreasing map into the valid probabilities,
from 0 at the lower end of the support to 1 at the upper end. `lo ≤ x` etc. are IEEE comparisons, so `x` ranges over every
f64 of the interval, signed zeros and infinities included, and NaN excluded. -/
namespace Rstat.Spec

/-- a floating-point distribution function on `[lo, hi]` -/
structure FloatCDF (F : F64 → Probability) (lo hi : F64) : Prop where
  /-- `x <= y` implies `cdf(x) <= cdf(y)`; in particular neither is NaN -/
  mono : ∀ x y : F64, lo ≤ x → x ≤ y → y ≤ hi → (F x).val ≤ (F y).val
  /-- every value is a valid probability -/
  valid : ∀ x : F64, lo ≤ x → x ≤ hi → 0 ≤ (F x).val ∧ (F x).val ≤ 1
  left : (F lo).val.Is 0
  right : (F hi).val.Is 1

/-- the numbers that exist in the format: finite values are fixed by rounding and do not overflow -/
def IsF64 [FP] (x : F64) : Prop := ∀ r : ℝ, x.Is r → FP.rnd r = r ∧ ¬ FP.huge r

/-- the same when only arguments that exist in the format are considered (the model's `F64.fin` admits every real) -/
structure FloatCDF64 [FP] (F : F64 → Probability) (lo hi : F64) : Prop where
  mono : ∀ x y : F64, IsF64 x → IsF64 y → lo ≤ x → x ≤ y → y ≤ hi → (F x).val ≤ (F y).val
  valid : ∀ x : F64, IsF64 x → lo ≤ x → x ≤ hi → 0 ≤ (F x).val ∧ (F x).val ≤ 1
  left : (F lo).val.Is 0
  right : (F hi).val.Is 1

/-- the floating-point distribution function `F` is within `ε` of the real one `G` at every f64 argument in `S` -/
def AccurateCDF [FP] (F : F64 → Probability) (G : ℝ → ℝ) (S : Set ℝ) (ε : ℝ) : Prop :=
  ∀ (x : F64) (r : ℝ), IsF64 x → x.Is r → r ∈ S → ∃ p : ℝ, (F x).val.Is p ∧ |p - G r| ≤ ε

end Rstat.Spec
