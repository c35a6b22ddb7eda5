import Verif.Spec.FloatCDF

/-! What a user of a `pdf` method relies on in floating point: it is close to the real density. -/
namespace Rstat.Spec

/-- the floating-point density `F` is within `ε` of the real one `f` at every f64 argument in `S` -/
def AccuratePDF [FP] (F : F64 → F64) (f : ℝ → ℝ) (S : Set ℝ) (ε : ℝ) : Prop :=
  ∀ (x : F64) (r : ℝ), IsF64 x → x.Is r → r ∈ S → ∃ p : ℝ, (F x).Is p ∧ |p - f r| ≤ ε

/-- scales for which neither the parameter nor its reciprocal is near the ends of the exponent range -/
def Moderate (s : ℝ) : Prop := 1 / 2 ^ 500 ≤ s ∧ s ≤ 2 ^ 500

end Rstat.Spec
