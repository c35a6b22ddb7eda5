import Verif.Model.Consts
import Verif.Float.Lemmas

/-! Exact values of the constants, and the evaluation tactic `fev`. -/
namespace Rstat
open F64 Consts
variable [FP] [FP.Exact]

theorem PI_is : PI.Is Real.pi := Is.lit _
theorem E_is : E.Is (Real.exp 1) := Is.lit _
theorem PI_E_is : PI_E.Is (Real.pi * Real.exp 1) := PI_is.mul E_is
theorem PI_2_is : PI_2.Is (Real.pi * 2) := PI_is.mul (Is.num 2)
theorem PI_E_2_is : PI_E_2.Is (Real.pi * Real.exp 1 * 2) := PI_E_is.mul (Is.num 2)
theorem PI_16_is : PI_16.Is (Real.pi * 16) := PI_is.mul (Is.num 16)
theorem PI_OVER_2_is : PI_OVER_2.Is (Real.pi / 2) := PI_is.div (Is.num 2) (by norm_num)
theorem PI_OVER_4_is : PI_OVER_4.Is (Real.pi / 4) := PI_is.div (Is.num 4) (by norm_num)
theorem PI2_is : PI2.Is (Real.pi ^ 2) := (PI_is.mul PI_is).congr (by ring)
theorem PI2_OVER_6_is : PI2_OVER_6.Is (Real.pi ^ 2 / 6) := PI2_is.div (Is.num 6) (by norm_num)
theorem PI3_is : PI3.Is (Real.pi ^ 3) := ((PI_is.mul PI_is).mul PI_is).congr (by ring)
theorem PI4_is : PI4.Is (Real.pi ^ 4) := (((PI_is.mul PI_is).mul PI_is).mul PI_is).congr (by ring)
theorem PI5_is : PI5.Is (Real.pi ^ 5) := ((((PI_is.mul PI_is).mul PI_is).mul PI_is).mul PI_is).congr (by ring)
theorem ONE_OVER_PI_is : ONE_OVER_PI.Is (1 / Real.pi) := Is.one.div PI_is Real.pi_ne_zero
theorem TWO_OVER_PI_is : TWO_OVER_PI.Is (2 / Real.pi) := (Is.num 2).div PI_is Real.pi_ne_zero
theorem TWO_OVER_PI2_is : TWO_OVER_PI2.Is (2 / Real.pi ^ 2) := (Is.num 2).div PI2_is (pow_ne_zero _ Real.pi_ne_zero)
theorem ONE_HALF_is : ONE_HALF.Is (1 / 2) := Is.one.div (Is.num 2) (by norm_num)
theorem ONE_THIRD_is : ONE_THIRD.Is (1 / 3) := Is.one.div (Is.num 3) (by norm_num)
theorem ONE_TWELTH_is : ONE_TWELTH.Is (1 / 12) := Is.one.div (Is.num 12) (by norm_num)
theorem ONE_TWENTY_FOURTH_is : ONE_TWENTY_FOURTH.Is (1 / 24) := Is.one.div (Is.num 24) (by norm_num)
theorem TWO_THIRDS_is : TWO_THIRDS.Is (2 / 3) := (Is.num 2).div (Is.num 3) (by norm_num)
theorem THREE_HALVES_is : THREE_HALVES.Is (3 / 2) := (Is.num 3).div (Is.num 2) (by norm_num)
theorem THREE_FIFTHS_is : THREE_FIFTHS.Is (3 / 5) := (Is.num 3).div (Is.num 5) (by norm_num)
theorem SIX_FIFTHS_is : SIX_FIFTHS.Is (6 / 5) := (Is.num 6).div (Is.num 5) (by norm_num)
theorem NINE_FIFTHS_is : NINE_FIFTHS.Is (9 / 5) := (Is.num 9).div (Is.num 5) (by norm_num)
theorem TWELVE_FIFTHS_is : TWELVE_FIFTHS.Is (12 / 5) := (Is.num 12).div (Is.num 5) (by norm_num)
theorem TWENTY_ONE_FIFTHS_is : TWENTY_ONE_FIFTHS.Is (21 / 5) := (Is.num 21).div (Is.num 5) (by norm_num)
theorem TWENTY_SEVEN_FIFTHS_is : TWENTY_SEVEN_FIFTHS.Is (27 / 5) := (Is.num 27).div (Is.num 5) (by norm_num)
theorem NINETEEN_OVER_360_is : NINETEEN_OVER_360.Is (19 / 360) := (Is.num 19).div (Is.num 360) (by norm_num)

/-- `feval_core` plus the named constants -/
macro "fev_core" : tactic => `(tactic| repeat' (first
  | assumption
  | exact F64.Is.fin _
  | exact F64.Is.zero
  | exact F64.Is.one
  | exact F64.Is.num _
  | exact PI_is | exact E_is | exact PI_E_is | exact PI_2_is | exact PI_E_2_is | exact PI_16_is | exact PI_OVER_2_is
  | exact PI_OVER_4_is | exact PI2_is | exact PI2_OVER_6_is | exact PI3_is | exact PI4_is | exact PI5_is
  | exact ONE_OVER_PI_is | exact TWO_OVER_PI_is | exact TWO_OVER_PI2_is | exact ONE_HALF_is | exact ONE_THIRD_is
  | exact ONE_TWELTH_is | exact ONE_TWENTY_FOURTH_is | exact TWO_THIRDS_is | exact THREE_HALVES_is | exact THREE_FIFTHS_is
  | exact SIX_FIFTHS_is | exact NINE_FIFTHS_is | exact TWELVE_FIFTHS_is | exact TWENTY_ONE_FIFTHS_is
  | exact TWENTY_SEVEN_FIFTHS_is | exact NINETEEN_OVER_360_is
  | exact F64.Is.lit _
  | exact F64.Is.ofNat _
  | exact F64.Is.ofInt _
  | apply F64.Is.add
  | apply F64.Is.sub
  | apply F64.Is.mul
  | apply F64.Is.div
  | apply F64.Is.neg
  | apply F64.Is.exp
  | apply F64.Is.ln
  | apply F64.Is.log2
  | apply F64.Is.sqrt
  | apply F64.Is.powi2
  | apply F64.Is.sin
  | apply F64.Is.cos
  | apply F64.Is.tan
  | apply F64.Is.atan
  | apply F64.Is.asin
  | apply F64.Is.powf
  | apply F64.Is.erf
  | apply F64.Is.erfc
  | apply F64.Is.norm
  | apply F64.Is.gamma
  | apply F64.Is.loggamma
  | apply F64.Is.digamma
  | apply F64.Is.beta
  | apply F64.Is.logbeta
  | apply F64.Is.abs
  | apply F64.Is.floor
  | apply F64.Is.ceil))

/-- evaluate an F64 expression to the real expression of the same shape and discharge the easy side conditions -/
macro "fev" : tactic => `(tactic| (fev_core <;> try first | assumption | positivity | (norm_num; done) | (simp; done) | linarith))
/-- evaluate, leaving the goal `computed real = required real` -/
macro "fevc" : tactic => `(tactic| (refine F64.Is.congr (r := ?_) ?_ ?_; rotate_left; · fev))

end Rstat
