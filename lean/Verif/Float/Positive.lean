import Verif.Float.Binary64

/-! Contract used by C259: the special functions appearing in densities are non-negative on non-negative arguments, and the
cosine is at least -1.  No accuracy is assumed. -/
namespace Rstat
open F64

/-- sign facts about the special functions (sign bit clear on arguments whose sign bit is clear) -/
class FP.SignFns [FP] : Prop where
  gamma_sign : ∀ a : F64, ¬ a.isNeg → ¬ (FP.sGamma a).isNeg
  beta_sign : ∀ a b : F64, ¬ a.isNeg → ¬ b.isNeg → ¬ (FP.sBeta a b).isNeg
  cos_ge : ∀ x, -1 ≤ FP.fcos x

end Rstat
