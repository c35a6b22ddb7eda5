import Mathlib.Data.EReal.Basic
import Mathlib.Analysis.SpecialFunctions.Pow.Real
import Mathlib.Analysis.SpecialFunctions.Trigonometric.Arctan
import Mathlib.Analysis.SpecialFunctions.Trigonometric.Inverse
import Mathlib.Analysis.SpecialFunctions.Log.Base
import Verif.Spec.Special

/-!
# The f64 type of the model

`F64` mirrors IEEE-754 binary64 *values*: NaN (payloads identified), the two infinities, `-0.0`, and
`fin r` (finite value `r`; `fin 0` is `+0.0`).  Rounding is a parameter (class `FP`), so the
same definitions are read both as real floating-point code (`FP.Lawful`) and as exact formulas
(`FP.Exact`).  Models the primitive `f64` operations used throughout /repo/src (core/std of Rust).
-/
namespace Rstat

open Classical in
/-- Rust's `f64` up to NaN payload. -/
inductive F64 where
  | nan | pinf | ninf | negZero
  | fin (r : ℝ)

/-- integer literals of the source are exact -/
noncomputable instance : Zero F64 := ⟨F64.fin 0⟩
noncomputable instance : One F64 := ⟨F64.fin 1⟩
noncomputable instance (n : ℕ) [n.AtLeastTwo] : OfNat F64 n := ⟨F64.fin (OfNat.ofNat n)⟩

/-- A floating-point arithmetic: rounding, overflow predicate (applied to the rounded value), libm
and `special_fun` (cephes) routines. Real-valued libm fields give the value that is then rounded. -/
class FP where
  /-- rounding of an exact real result -/
  rnd : ℝ → ℝ
  /-- does a rounded magnitude overflow? -/
  huge : ℝ → Prop
  fexp : ℝ → ℝ
  fln : ℝ → ℝ
  flog2 : ℝ → ℝ
  fsin : ℝ → ℝ
  fcos : ℝ → ℝ
  ftan : ℝ → ℝ
  fatan : ℝ → ℝ
  fasin : ℝ → ℝ
  fpow : ℝ → ℝ → ℝ
  /-- `special_fun::FloatSpecial` routines -/
  sErf : F64 → F64
  sErfc : F64 → F64
  sGamma : F64 → F64
  sLogGamma : F64 → F64
  sDigamma : F64 → F64
  sBeta : F64 → F64 → F64
  sLogBeta : F64 → F64 → F64
  sGammainc : F64 → F64 → F64
  sBetainc : F64 → F64 → F64 → F64
  sNorm : F64 → F64
  sNormInv : F64 → F64
  sHyp2f1 : F64 → F64 → F64 → F64 → F64
  sZeta : F64 → F64

namespace F64

/-- finite value (`-0.0` counts as 0); non-finite values are sent to 0 -/
noncomputable def toReal : F64 → ℝ
  | fin r => r
  | _ => 0

/-- extended-real value, `none` for NaN -/
noncomputable def ext : F64 → Option EReal
  | nan => none
  | pinf => some ⊤
  | ninf => some ⊥
  | negZero => some 0
  | fin r => some (r : EReal)

/-- `f64::is_finite` -/
def isFinite : F64 → Prop
  | fin _ => True
  | negZero => True
  | _ => False

/-- `f64::is_infinite` -/
def isInf : F64 → Prop
  | pinf => True
  | ninf => True
  | _ => False

/-- sign bit (`f64::is_sign_negative`, NaN sign taken as positive) -/
def isNeg : F64 → Prop
  | ninf => True
  | negZero => True
  | fin r => r < 0
  | _ => False

/-- IEEE `<` -/
def lt (a b : F64) : Prop := ∃ x y, a.ext = some x ∧ b.ext = some y ∧ x < y
/-- IEEE `<=` -/
def le (a b : F64) : Prop := ∃ x y, a.ext = some x ∧ b.ext = some y ∧ x ≤ y
/-- IEEE `==` -/
def feq (a b : F64) : Prop := ∃ x, a.ext = some x ∧ b.ext = some x

instance : LT F64 := ⟨lt⟩
instance : LE F64 := ⟨le⟩

/-- IEEE negation: flips the sign bit -/
noncomputable def neg : F64 → F64
  | nan => nan
  | pinf => ninf
  | ninf => pinf
  | negZero => fin 0
  | fin r => open Classical in if r = 0 then negZero else fin (-r)

noncomputable instance : Neg F64 := ⟨neg⟩

section ops
variable [FP]
open Classical

/-- round an exact real result; overflow gives an infinity, a negative result rounding to zero gives `-0.0` -/
noncomputable def round (r : ℝ) : F64 :=
  if FP.huge (FP.rnd r) then (if 0 < r then pinf else ninf)
  else if FP.rnd r = 0 ∧ r < 0 then negZero
  else fin (FP.rnd r)

/-- a zero with the given sign -/
noncomputable def szero (s : Prop) : F64 := if s then negZero else fin 0
/-- an infinity with the given sign -/
noncomputable def sinf (s : Prop) : F64 := if s then ninf else pinf

/-- IEEE addition -/
noncomputable def add : F64 → F64 → F64
  | nan, _ => nan
  | _, nan => nan
  | pinf, ninf => nan
  | ninf, pinf => nan
  | pinf, _ => pinf
  | _, pinf => pinf
  | ninf, _ => ninf
  | _, ninf => ninf
  | negZero, negZero => negZero
  | a, b => round (a.toReal + b.toReal)

noncomputable instance : Add F64 := ⟨add⟩

/-- IEEE subtraction -/
noncomputable instance : Sub F64 := ⟨fun a b => add a (-b)⟩

/-- IEEE multiplication -/
noncomputable def mul (a b : F64) : F64 :=
  match a, b with
  | nan, _ => nan
  | _, nan => nan
  | a, b =>
    if a.isInf ∨ b.isInf then
      (if (a.isFinite ∧ a.toReal = 0) ∨ (b.isFinite ∧ b.toReal = 0) then nan
       else sinf (¬ (a.isNeg ↔ b.isNeg)))
    else if a.toReal * b.toReal = 0 then szero (¬ (a.isNeg ↔ b.isNeg))
    else round (a.toReal * b.toReal)

noncomputable instance : Mul F64 := ⟨mul⟩

/-- IEEE division -/
noncomputable def div (a b : F64) : F64 :=
  match a, b with
  | nan, _ => nan
  | _, nan => nan
  | a, b =>
    if a.isInf then (if b.isInf then nan else sinf (¬ (a.isNeg ↔ b.isNeg)))
    else if b.isInf then szero (¬ (a.isNeg ↔ b.isNeg))
    else if b.toReal = 0 then
      (if a.toReal = 0 then nan else sinf (¬ (a.isNeg ↔ b.isNeg)))
    else if a.toReal = 0 then szero (¬ (a.isNeg ↔ b.isNeg))
    else round (a.toReal / b.toReal)

noncomputable instance : Div F64 := ⟨div⟩

/-- truncating real remainder `a - trunc(a/b) b` -/
noncomputable def realRem (a b : ℝ) : ℝ :=
  a - (if 0 ≤ a / b then (⌊a / b⌋ : ℝ) else (⌈a / b⌉ : ℝ)) * b

/-- Rust `%` on f64 (C `fmod`, exact) -/
noncomputable def rem (a b : F64) : F64 :=
  match a, b with
  | nan, _ => nan
  | _, nan => nan
  | a, b =>
    if a.isInf then nan
    else if b.isInf then a
    else if b.toReal = 0 then nan
    else if realRem a.toReal b.toReal = 0 then szero a.isNeg
    else round (realRem a.toReal b.toReal)

noncomputable instance : Mod F64 := ⟨rem⟩

/-- a decimal literal or named constant of the source, correctly rounded -/
noncomputable def lit (r : ℝ) : F64 := round r

/-- `n as f64` for an unsigned integer -/
noncomputable def ofNat (n : ℕ) : F64 := round n
/-- `n as f64` for a signed integer -/
noncomputable def ofInt (n : ℤ) : F64 := round n

/-- `f64::abs` -/
noncomputable def abs : F64 → F64
  | nan => nan
  | pinf => pinf
  | ninf => pinf
  | negZero => fin 0
  | fin r => fin |r|

/-- `f64::floor` (exact) -/
noncomputable def floor : F64 → F64
  | fin r => fin ⌊r⌋
  | a => a

/-- `f64::ceil` (exact); results in (-1,0) are `-0.0` -/
noncomputable def ceil : F64 → F64
  | fin r => if ⌈r⌉ = 0 ∧ r < 0 then negZero else fin ⌈r⌉
  | a => a

/-- `f64::max`: ignores a NaN operand -/
noncomputable def max (a b : F64) : F64 :=
  match a, b with
  | nan, b => b
  | a, nan => a
  | a, b => if a < b then b else a

/-- `f64::min`: ignores a NaN operand -/
noncomputable def min (a b : F64) : F64 :=
  match a, b with
  | nan, b => b
  | a, nan => a
  | a, b => if b < a then b else a

/-- `f64::sqrt` (correctly rounded) -/
noncomputable def sqrt : F64 → F64
  | nan => nan
  | pinf => pinf
  | ninf => nan
  | negZero => negZero
  | fin r => if r < 0 then nan else round (Real.sqrt r)

/-- `f64::exp` -/
noncomputable def exp : F64 → F64
  | nan => nan
  | pinf => pinf
  | ninf => fin 0
  | negZero => round (FP.fexp 0)
  | fin r => round (FP.fexp r)

/-- logarithms share special values: `f` is the real logarithm used -/
noncomputable def logWith (f : ℝ → ℝ) : F64 → F64
  | nan => nan
  | pinf => pinf
  | ninf => nan
  | negZero => ninf
  | fin r => if r = 0 then ninf else if r < 0 then nan else round (f r)

/-- `f64::ln` -/
noncomputable def ln (a : F64) : F64 := logWith FP.fln a
/-- `f64::log2` -/
noncomputable def log2 (a : F64) : F64 := logWith FP.flog2 a

/-- trigonometric functions: NaN at the infinities -/
noncomputable def trig (f : ℝ → ℝ) : F64 → F64
  | nan => nan
  | pinf => nan
  | ninf => nan
  | negZero => if f 0 = 0 then negZero else round (f 0)
  | fin r => round (f r)

/-- `f64::sin` -/
noncomputable def sin (a : F64) : F64 := trig FP.fsin a
/-- `f64::cos` -/
noncomputable def cos (a : F64) : F64 := trig FP.fcos a
/-- `f64::tan` -/
noncomputable def tan (a : F64) : F64 := trig FP.ftan a

/-- `f64::atan` -/
noncomputable def atan : F64 → F64
  | nan => nan
  | pinf => round (Real.pi / 2)
  | ninf => round (-(Real.pi / 2))
  | negZero => negZero
  | fin r => round (FP.fatan r)

/-- `f64::asin`: NaN outside [-1,1] -/
noncomputable def asin : F64 → F64
  | nan => nan
  | pinf => nan
  | ninf => nan
  | negZero => negZero
  | fin r => if r < -1 ∨ 1 < r then nan else round (FP.fasin r)

/-- is the finite value an integer / an odd integer -/
def isInt (r : ℝ) : Prop := ∃ n : ℤ, r = n
def isOdd (r : ℝ) : Prop := ∃ n : ℤ, r = n ∧ Odd n

/-- `f64::powf` (C99 `pow` special cases) -/
noncomputable def powf (a b : F64) : F64 :=
  if b.isFinite ∧ b.toReal = 0 then fin 1
  else if a.isFinite ∧ a.toReal = 1 then fin 1
  else match a, b with
  | nan, _ => nan
  | _, nan => nan
  | a, pinf => if a.isFinite ∧ |a.toReal| < 1 then fin 0
               else if a.isFinite ∧ |a.toReal| = 1 then fin 1 else pinf
  | a, ninf => if a.isFinite ∧ |a.toReal| < 1 then pinf
               else if a.isFinite ∧ |a.toReal| = 1 then fin 1 else fin 0
  | pinf, b => if 0 < b.toReal then pinf else fin 0
  | ninf, b => if 0 < b.toReal then sinf (isOdd b.toReal) else szero (isOdd b.toReal)
  | a, b =>
    if a.toReal = 0 then
      (if 0 < b.toReal then szero (a.isNeg ∧ isOdd b.toReal)
       else sinf (a.isNeg ∧ isOdd b.toReal))
    else if a.toReal < 0 then
      (if isInt b.toReal then
        (if isOdd b.toReal then round (- FP.fpow (-a.toReal) b.toReal)
         else round (FP.fpow (-a.toReal) b.toReal))
       else nan)
    else round (FP.fpow a.toReal b.toReal)

/-- compiler-rt `__powidf2` main loop: accumulator `r`, base `a`, remaining exponent `n` -/
noncomputable def powiLoop (a r : F64) (n : ℕ) : F64 :=
  if h : n / 2 = 0 then (if n % 2 = 1 then r * a else r)
  else powiLoop (a * a) (if n % 2 = 1 then r * a else r) (n / 2)
termination_by n
decreasing_by omega

/-- `f64::powi` (compiler-rt repeated squaring, reciprocal for negative exponents) -/
noncomputable def powi (a : F64) (n : ℤ) : F64 :=
  if n < 0 then fin 1 / powiLoop a (fin 1) n.natAbs else powiLoop a (fin 1) n.natAbs

end ops

noncomputable section special
variable [FP]
/-- `special_fun::FloatSpecial` methods -/
def erf (a : F64) : F64 := FP.sErf a
def erfc (a : F64) : F64 := FP.sErfc a
def gamma (a : F64) : F64 := FP.sGamma a
def loggamma (a : F64) : F64 := FP.sLogGamma a
def digamma (a : F64) : F64 := FP.sDigamma a
def beta (a b : F64) : F64 := FP.sBeta a b
def logbeta (a b : F64) : F64 := FP.sLogBeta a b
def gammainc (a x : F64) : F64 := FP.sGammainc a x
def betainc (x a b : F64) : F64 := FP.sBetainc x a b
def norm (a : F64) : F64 := FP.sNorm a
def normInv (a : F64) : F64 := FP.sNormInv a
def hyp2f1 (a b c x : F64) : F64 := FP.sHyp2f1 a b c x
def riemannZeta (a : F64) : F64 := FP.sZeta a
end special

/-- left-to-right floating sum starting from +0.0 (`Iterator::sum::<f64>`, and the `fold(0.0, +)` loops) -/
noncomputable def sum [FP] (l : List F64) : F64 := l.foldl (· + ·) 0

/-- product of a list, from 1.0 -/
noncomputable def prod [FP] (l : List F64) : F64 := l.foldl (· * ·) 1

/-- "`a` is finite with real value `r`" (both zeros have value 0) -/
def Is (a : F64) (r : ℝ) : Prop := a = fin r ∨ (a = negZero ∧ r = 0)

end F64

/-- Laws of a correctly rounded arithmetic (round-to-nearest binary64 satisfies them, see
`Float/Binary64.lean`; exact arithmetic trivially does). -/
class FP.Lawful [FP] : Prop where
  rnd_mono : Monotone (FP.rnd)
  rnd_neg : ∀ x, FP.rnd (-x) = - FP.rnd x
  rnd_idem : ∀ x, FP.rnd (FP.rnd x) = FP.rnd x
  /-- dyadic rationals with a 53-bit numerator are representable -/
  rnd_dyadic : ∀ (m : ℤ) (e : ℕ), |m| ≤ 2 ^ 53 → e ≤ 1000 → FP.rnd (m / 2 ^ e) = m / 2 ^ e
  /-- half-ulp error: relative 2^-53 plus the subnormal half-spacing -/
  rnd_err : ∀ x, |FP.rnd x - x| ≤ |x| / 2 ^ 53 + 1 / 2 ^ 1075
  /-- no overflow below 2^1023 -/
  not_huge : ∀ x, |x| ≤ 2 ^ 1023 → ¬ FP.huge x
  huge_neg : ∀ x, FP.huge (-x) ↔ FP.huge x
  huge_mono : ∀ x y, |x| ≤ |y| → FP.huge x → FP.huge y

/-- Exact arithmetic: no rounding, no overflow, libm and special functions are the mathematical ones
on their real domains. -/
class FP.Exact [FP] : Prop where
  rnd_id : ∀ x, FP.rnd x = x
  no_huge : ∀ x, ¬ FP.huge x
  exp_eq : ∀ x, FP.fexp x = Real.exp x
  ln_eq : ∀ x, FP.fln x = Real.log x
  log2_eq : ∀ x, FP.flog2 x = Real.logb 2 x
  sin_eq : ∀ x, FP.fsin x = Real.sin x
  cos_eq : ∀ x, FP.fcos x = Real.cos x
  tan_eq : ∀ x, FP.ftan x = Real.tan x
  atan_eq : ∀ x, FP.fatan x = Real.arctan x
  asin_eq : ∀ x, FP.fasin x = Real.arcsin x
  pow_eq : ∀ x y, FP.fpow x y = x ^ y
  erf_eq : ∀ {a : F64} {r : ℝ}, a.Is r → (FP.sErf a).Is (Spec.erf r)
  erfc_eq : ∀ {a : F64} {r : ℝ}, a.Is r → (FP.sErfc a).Is (1 - Spec.erf r)
  gamma_eq : ∀ {a : F64} {r : ℝ}, a.Is r → 0 < r → (FP.sGamma a).Is (Real.Gamma r)
  loggamma_eq : ∀ {a : F64} {r : ℝ}, a.Is r → 0 < r → (FP.sLogGamma a).Is (Real.log (Real.Gamma r))
  zeta_eq : ∀ {a : F64} {r : ℝ}, a.Is r → 1 < r → (FP.sZeta a).Is (Spec.zeta r)
  digamma_eq : ∀ {a : F64} {r : ℝ}, a.Is r → 0 < r → (FP.sDigamma a).Is (Spec.digamma r)
  beta_eq : ∀ {a b : F64} {r s : ℝ}, a.Is r → b.Is s → 0 < r → 0 < s →
    (FP.sBeta a b).Is (Spec.Beta r s)
  logbeta_eq : ∀ {a b : F64} {r s : ℝ}, a.Is r → b.Is s → 0 < r → 0 < s →
    (FP.sLogBeta a b).Is (Real.log (Spec.Beta r s))
  gammainc_eq : ∀ {a x : F64} {r s : ℝ}, a.Is r → x.Is s → 0 < r → 0 ≤ s →
    (FP.sGammainc a x).Is (Spec.gammaP r s)
  betainc_eq : ∀ {x a b : F64} {t r s : ℝ}, x.Is t → a.Is r → b.Is s → 0 ≤ t → t ≤ 1 → 0 < r → 0 < s →
    (FP.sBetainc x a b).Is (Spec.betaI t r s)
  hyp2f1_eq : ∀ {a b c x : F64} {p q r z : ℝ}, a.Is p → b.Is q → c.Is r → x.Is z → 0 < p → p < r → z < 1 →
    (FP.sHyp2f1 a b c x).Is (Spec.hyp2f1 p q r z)
  norm_eq : ∀ {a : F64} {r : ℝ}, a.Is r → (FP.sNorm a).Is (Spec.Phi r)
  /-- `norm_inv` inverts `norm` on the range of Phi -/
  normInv_eq : ∀ {a : F64} {z : ℝ}, a.Is (Spec.Phi z) → (FP.sNormInv a).Is z

end Rstat
