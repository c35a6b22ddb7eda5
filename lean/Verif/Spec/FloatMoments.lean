import Verif.Spec.FloatPDF

/-! What a user of the moment methods relies on in floating point: the relative error is a few units in the last place. -/
namespace Rstat.Spec

/-- the computed `a` is a finite number within relative error `ε` of `t` -/
def RelClose (a : F64) (t ε : ℝ) : Prop := ∃ y : ℝ, a.Is y ∧ |y - t| ≤ ε * |t|

/-- the call returns normally and its value is within relative error `ε` of `t` -/
def ReturnsClose {E : Type} (e : Except E F64) (t ε : ℝ) : Prop := ∃ a, e = .ok a ∧ RelClose a t ε

/-- parameters of ordinary size: between `2^-60` and `2^60`, that is from `10^-18` to `10^18` -/
def Ordinary (s : ℝ) : Prop := 1 / 2 ^ 60 ≤ s ∧ s ≤ 2 ^ 60

/-- the computed `a` is a finite number within `ε` of `t` on the scale `w` (for families with a location, where `t` may be zero) -/
def ScaleClose (a : F64) (t w ε : ℝ) : Prop := ∃ y : ℝ, a.Is y ∧ |y - t| ≤ ε * w

/-- the computed `a` is a finite number within `ε` of `t` -/
def AbsClose (a : F64) (t ε : ℝ) : Prop := ∃ y : ℝ, a.Is y ∧ |y - t| ≤ ε

end Rstat.Spec
