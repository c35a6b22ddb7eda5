import Verif.Spec.Prob
import Mathlib.Data.Nat.Choose.Basic
import Mathlib.Data.Nat.Factorial.Basic
import Mathlib.Analysis.SpecialFunctions.Exp

/-! Textbook mass functions of the discrete laws (no reference to the model). -/
namespace Rstat.Spec

/-- Bernoulli(p) on `{false, true}` -/
def bernPMF (p : ℝ) : Bool → ℝ
  | true => p
  | false => 1 - p

/-- Binomial(n,p) on ℕ (zero above `n`, since the binomial coefficient is) -/
def binPMF (n : ℕ) (p : ℝ) (k : ℕ) : ℝ := n.choose k * p ^ k * (1 - p) ^ (n - k)

/-- Poisson(l) on ℕ -/
noncomputable def poisPMF (l : ℝ) (k : ℕ) : ℝ := l ^ k * Real.exp (-l) / k.factorial

/-- Geometric(p) on ℕ: number of failures before the first success -/
def geomPMF (p : ℝ) (k : ℕ) : ℝ := p * (1 - p) ^ k

/-- law of the sum of two independent ℕ-valued variables -/
def convPMF (f g : ℕ → ℝ) (k : ℕ) : ℝ := ∑ ij ∈ Finset.antidiagonal k, f ij.1 * g ij.2

/-- Fisher information of a one-parameter family of mass functions: expected square of the derivative of the
log-mass -/
noncomputable def fisherD {α : Type*} (f : ℝ → α → ℝ) (θ : ℝ) : ℝ :=
  ∑' a, (deriv (fun t => Real.log (f t a)) θ) ^ 2 * f θ a

/-- `m` is a median of the random quantity `X` under the mass function `p`: at least half the mass on both sides -/
def IsMedianD {α : Type*} (p X : α → ℝ) (m : ℝ) : Prop :=
  ∃ a b, HasSum (Set.indicator {x | X x ≤ m} p) a ∧ HasSum (Set.indicator {x | m ≤ X x} p) b ∧ 1 / 2 ≤ a ∧ 1 / 2 ≤ b

/-- the value of a Boolean outcome as a number (`false ↦ 0`, `true ↦ 1`) -/
def boolVal : Bool → ℝ
  | true => 1
  | false => 0

/-- `k` is a most likely value of `p` -/
def IsModeD {α : Type*} (p : α → ℝ) (k : α) : Prop := ∀ j, p j ≤ p k

end Rstat.Spec

namespace Rstat.Spec
/-- the number of successes (0 or 1) of a Bernoulli(p) trial, as a law on ℕ -/
def bernNatPMF (p : ℝ) : ℕ → ℝ
  | 0 => 1 - p
  | 1 => p
  | _ => 0
end Rstat.Spec
