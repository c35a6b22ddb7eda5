import Verif.Float.Core
import Verif.Model.Probability

/-! What a user of a `quantile` method relies on in floating point: a larger probability never gives a smaller quantile
(the comparisons are IEEE ones, so no quantile is NaN), and every quantile lies in the support. -/
namespace Rstat.Spec

/-- a floating-point quantile function for a law on `[lo, hi]`, over every valid probability, 0 and 1 included -/
structure FloatQuantile (Q : Probability → F64) (lo hi : F64) : Prop where
  mono : ∀ p q : Probability, 0 ≤ p.val → p.val ≤ q.val → q.val ≤ 1 → Q p ≤ Q q
  range : ∀ p : Probability, 0 ≤ p.val → p.val ≤ 1 → lo ≤ Q p ∧ Q p ≤ hi

/-- the same over the probabilities strictly between 0 and 1 -/
structure FloatQuantileInner (Q : Probability → F64) (lo hi : F64) : Prop where
  mono : ∀ p q : Probability, 0 < p.val → p.val ≤ q.val → q.val < 1 → Q p ≤ Q q
  range : ∀ p : Probability, 0 < p.val → p.val < 1 → lo ≤ Q p ∧ Q p ≤ hi

/-- the five summary numbers are in order and the inter-quartile range is not negative -/
def OrderedSummary (lf lq med uq uf iqr : F64) : Prop := lf ≤ lq ∧ lq ≤ med ∧ med ≤ uq ∧ uq ≤ uf ∧ 0 ≤ iqr

end Rstat.Spec
