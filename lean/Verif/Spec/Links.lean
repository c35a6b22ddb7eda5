import Verif.Spec.Prob

/-! Vocabulary for comparing two distribution values: their methods return the same real numbers. -/
namespace Rstat.Spec
open Rstat

/-- two results are the same real number -/
def SameVal (x y : F64) : Prop := ∃ u : ℝ, x.Is u ∧ y.Is u

/-- two real-argument methods return the same real number at every point of `S` -/
def SameOn (S : Set ℝ) (f g : F64 → F64) : Prop := ∀ (a : F64) (t : ℝ), t ∈ S → a.Is t → SameVal (f a) (g a)

/-- two lists of results are the same list of real numbers -/
def SameList (xs ys : List F64) : Prop := List.Forall₂ SameVal xs ys
end Rstat.Spec
