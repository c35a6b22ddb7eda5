import Verif.Model.Samplers
import Verif.Model.Dist.Support

/-! What C252 says: the random source answers inside the interval it was asked for, and a sample is a point of the support. -/
namespace Rstat.Spec

/-- `rand` answers uniform requests inside the interval: `[lo, hi]` for `Uniform::new_inclusive(lo, hi)`, `[lo, hi)` for `Uniform::new(lo, hi)` -/
def InRange {σ : Type} (g : RandSrc σ) : Prop := ∀ lo hi s,
  (lo ≤ hi → lo ≤ (g.draw (.uniformIncl lo hi) s).1 ∧ (g.draw (.uniformIncl lo hi) s).1 ≤ hi) ∧
  (lo < hi → lo ≤ (g.draw (.uniform lo hi) s).1 ∧ (g.draw (.uniform lo hi) s).1 < hi)

/-- the standard normal variates are numbers of magnitude at most 64 (those of `rand_distr`'s Ziggurat stay below 15) -/
def NormalInRange {σ : Type} (g : NormalRng σ) : Prop := ∀ s, ∃ n : ℝ, (g.draw s).1.Is n ∧ |n| ≤ 64

/-- the sample is a number, and a point of the space `S` -/
def InSupport [FP] (S : RealSpace) (r : Except Panic F64) : Prop := ∃ x y, r = .ok x ∧ x.Is y ∧ y ∈ S.points
end Rstat.Spec
