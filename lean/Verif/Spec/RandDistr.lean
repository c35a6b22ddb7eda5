import Verif.Model.Samplers
import Verif.Spec.Discrete
import Verif.Spec.Families
import Mathlib.Probability.Distributions.Beta
import Mathlib.Probability.Distributions.Cauchy
import Mathlib.Probability.Distributions.Exponential
import Mathlib.Probability.Distributions.Gamma
import Mathlib.Probability.Distributions.Pareto
import Mathlib.Probability.Distributions.Poisson.Basic
import Mathlib.Probability.Distributions.Gaussian.Real
import Mathlib.Probability.ConditionalProbability

/-! The laws that the documentation of `rand` 0.8 and `rand_distr` 0.4 gives for their samplers (trusted; the crates' sources are not
part of the repository), and what it means that a `sample` method follows a law. -/
namespace Rstat.Spec
open MeasureTheory ProbabilityTheory Real

/-- the uniform law on `[a, b]` -/
noncomputable def unif (a b : ℝ) : Measure ℝ := ProbabilityTheory.cond volume (Set.Icc a b)

/-- chi-squared law with `k` degrees of freedom -/
noncomputable def chi2 (k : ℝ) : Measure ℝ := gammaMeasure (k / 2) (1 / 2)

/-- `rand_distr::Triangular` turns the uniform variate `u` into this value -/
noncomputable def triangularDraw (lo hi mode u : ℝ) : ℝ :=
  if u * (hi - lo) < mode - lo then lo + √(u * (hi - lo) * (mode - lo)) else hi - √((hi - lo - u * (hi - lo)) * (hi - mode))

/-- the measure with mass function `p` -/
noncomputable def massMeasure {α : Type} [MeasurableSpace α] (p : α → ℝ) : Measure α :=
  Measure.sum fun a => ENNReal.ofReal (p a) • Measure.dirac a

/-- documented law of a draw, for finite arguments in the documented domain -/
inductive Documented : RealSampler → Measure ℝ → Prop
  /-- `Exp(λ)`: rate `λ` -/
  | exp {l : F64} {r : ℝ} (hl : l.Is r) (h : 0 < r) : Documented (.exp l) (expMeasure r)
  | cauchy {a b : F64} {x : ℝ} {γ : NNReal} (ha : a.Is x) (hb : b.Is γ) (h : 0 < γ) : Documented (.cauchy a b) (cauchyMeasure x γ)
  | pareto {a b : F64} {t r : ℝ} (ha : a.Is t) (hb : b.Is r) (h : 0 < t) (h' : 0 < r) : Documented (.pareto a b) (paretoMeasure t r)
  /-- `Weibull(scale, shape)`: `scale * E^(1/shape)` for a standard exponential variate `E` -/
  | weibull {a b : F64} {l k : ℝ} (ha : a.Is l) (hb : b.Is k) (h : 0 < l) (h' : 0 < k) :
    Documented (.weibull a b) ((expMeasure 1).map fun e => l * e ^ (1 / k))
  | triangular {a b c : F64} {lo hi m : ℝ} (ha : a.Is lo) (hb : b.Is hi) (hc : c.Is m) (h : lo < hi) (h1 : lo ≤ m) (h2 : m ≤ hi) :
    Documented (.triangular a b c) ((unif 0 1).map (triangularDraw lo hi m))
  | uniform {a b : F64} {lo hi : ℝ} (ha : a.Is lo) (hb : b.Is hi) (h : lo < hi) : Documented (.uniform a b) (unif lo hi)
  | uniformIncl {a b : F64} {lo hi : ℝ} (ha : a.Is lo) (hb : b.Is hi) (h : lo < hi) : Documented (.uniformIncl a b) (unif lo hi)
  /-- `Gamma(shape, scale)`: Mathlib's second parameter is the rate -/
  | gamma {a b : F64} {k θ : ℝ} (ha : a.Is k) (hb : b.Is θ) (h : 0 < k) (h' : 0 < θ) : Documented (.gamma a b) (gammaMeasure k (1 / θ))
  | beta {a b : F64} {α β : ℝ} (ha : a.Is α) (hb : b.Is β) (h : 0 < α) (h' : 0 < β) : Documented (.beta a b) (betaMeasure α β)
  | chiSquared {a : F64} {k : ℝ} (ha : a.Is k) (h : 0 < k) : Documented (.chiSquared a) (chi2 k)
  /-- `FisherF(m, n)`: ratio of two independent normalised chi-squared variates -/
  | fisherF {a b : F64} {m n : ℝ} (ha : a.Is m) (hb : b.Is n) (h : 0 < m) (h' : 0 < n) :
    Documented (.fisherF a b) (((chi2 m).prod (chi2 n)).map fun p => p.1 / m / (p.2 / n))
  /-- `StudentT(n)`: a standard normal variate over the root of an independent normalised chi-squared variate -/
  | studentT {a : F64} {n : ℝ} (ha : a.Is n) (h : 0 < n) :
    Documented (.studentT a) (((gaussianReal 0 1).prod (chi2 n)).map fun p => p.1 * √(n / p.2))
  | poisson {a : F64} {l : NNReal} (ha : a.Is l) (h : 0 < l) : Documented (.poisson a) ((poissonMeasure l).map Nat.cast)

/-- documented law of a `u64` draw -/
inductive DocumentedNat : NatSampler → (ℕ → ℝ) → Prop
  | binomial {n : ℕ} {a : F64} {p : ℝ} (ha : a.Is p) (h0 : 0 ≤ p) (h1 : p ≤ 1) : DocumentedNat (.binomial n a) (binPMF n p)
  /-- `Geometric(p)`: number of failures before the first success -/
  | geometric {a : F64} {p : ℝ} (ha : a.Is p) (h0 : 0 < p) (h1 : p ≤ 1) : DocumentedNat (.geometric a) (geomPMF p)

/-- the source `g`, started in a state drawn from `P`, behaves as documented: every draw has its documented law -/
structure Faithful {σ : Type} [MeasurableSpace σ] (g : RandSrc σ) (P : Measure σ) : Prop where
  prob : IsProbabilityMeasure P
  real : ∀ c μ, Documented c μ → ∃ Y : σ → ℝ, Measurable Y ∧ (∀ s, (g.draw c s).1.Is (Y s)) ∧ P.map Y = μ
  nat : ∀ c p, DocumentedNat c p → ∀ k, P {s | (g.drawNat c s).1 = k} = ENNReal.ofReal (p k)
  int : ∀ a b : ℤ, a ≤ b → ∀ k, P {s | (g.drawInt a b s).1 = k} = ENNReal.ofReal (uniformPMF a b k)
  bool : ∀ (a : F64) (p : ℝ), a.Is p → 0 ≤ p → p ≤ 1 → P {s | (g.genBool a s).1 = true} = ENNReal.ofReal p ∧
    P {s | (g.genBool a s).1 = false} = ENNReal.ofReal (1 - p)

/-- with the state drawn from `P`, the computation `X` almost surely returns a finite number, and its value has law `μ` -/
def Follows {σ : Type} [MeasurableSpace σ] (P : Measure σ) (X : σ → Except Panic F64) (μ : Measure ℝ) : Prop :=
  ∃ Y : σ → ℝ, Measurable Y ∧ (∀ᵐ s ∂P, ∃ x, X s = .ok x ∧ x.Is (Y s)) ∧ P.map Y = μ

/-- for every documented source and every starting law, the `sample` method follows `μ` -/
def SampleFollows (X : ∀ σ : Type, RandSrc σ → σ → Except Panic F64 × σ) (μ : Measure ℝ) : Prop :=
  ∀ (σ : Type) [MeasurableSpace σ] (g : RandSrc σ) (P : Measure σ), Faithful g P → Follows P (fun s => (X σ g s).1) μ

/-- the same for a `sample` method with values in a discrete type: it never panics and has mass function `p` on `K` -/
def SampleFollowsPMF {α : Type} (X : ∀ σ : Type, RandSrc σ → σ → Except Panic α × σ) (p : α → ℝ) (K : Set α) : Prop :=
  ∀ (σ : Type) [MeasurableSpace σ] (g : RandSrc σ) (P : Measure σ), Faithful g P →
    (∀ s, ∃ k, (X σ g s).1 = .ok k) ∧ ∀ k ∈ K, P {s | (X σ g s).1 = .ok k} = ENNReal.ofReal (p k)
end Rstat.Spec
