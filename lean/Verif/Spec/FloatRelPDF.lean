import Verif.Spec.FloatPDF

/-! Relative accuracy of a floating-point density, for laws whose density has no natural scale. -/
namespace Rstat.Spec

/-- the floating-point density `F` is within a fraction `ε` of the real one `f` at every f64 argument in `S` -/
def RelativePDF (F : F64 → F64) (f : ℝ → ℝ) (S : Set ℝ) (ε : ℝ) : Prop :=
  ∀ (x : F64) (r : ℝ), x.Is r → r ∈ S → 0 < f r ∧ ∃ p : ℝ, (F x).Is p ∧ |p - f r| ≤ ε * f r

end Rstat.Spec
