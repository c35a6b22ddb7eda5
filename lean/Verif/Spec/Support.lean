import Verif.Spec.Prob
import Mathlib.MeasureTheory.Measure.OpenPos

/-! What it means that a set is the support of a law (no reference to the model). -/
namespace Rstat.Spec
open MeasureTheory

/-- `I` is the support of `μ` (up to its boundary): no mass outside `I`, and every non-empty open part of `I` has positive mass -/
def SupportedOn {E : Type*} [TopologicalSpace E] [MeasurableSpace E] (I : Set E) (μ : Measure E) : Prop :=
  μ Iᶜ = 0 ∧ ∀ U, IsOpen U → U.Nonempty → U ⊆ I → 0 < μ U

/-- `I` is the support of a law on a discrete set with mass function `p` -/
def SupportedOnD {α : Type*} (I : Set α) (p : α → ℝ) : Prop := ∀ k, 0 < p k ↔ k ∈ I
end Rstat.Spec
