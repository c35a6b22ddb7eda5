import Verif.Spec.RandDistr
import Verif.Model.Normal
import Verif.Model.Multi

/-! What it means that repeated calls of a `sample` method on one random source give independent values of one law. -/
namespace Rstat.Spec
open MeasureTheory

section
variable {σ V W : Type} [MeasurableSpace σ] [MeasurableSpace W]

/-- With the state drawn from `P`, the computation `X` almost surely returns a value; the value, read through `R` as a point of `W`, has law
`μ`; and the state it leaves has again law `P` and is independent of the value. (`Y` is the value and `S` the state left, as random variables.) -/
def Renews (P : Measure σ) (R : V → W → Prop) (X : σ → Except Panic V × σ) (μ : Measure W) : Prop :=
  ∃ (Y : σ → W) (S : σ → σ), Measurable Y ∧ Measurable S ∧
    (∀ᵐ s ∂P, (X s).2 = S s ∧ ∃ x, (X s).1 = .ok x ∧ R x (Y s)) ∧ P.map (fun s => (Y s, S s)) = μ.prod P

/-- With the state drawn from `P`, `n` successive calls of `X` (that is, `sample_n(n)`) almost surely return `n` values, and these are
independent with common law `μ`: their joint law is the product law. -/
def IID (P : Measure σ) (R : V → W → Prop) (X : σ → Except Panic V × σ) (μ : Measure W) : Prop :=
  ∀ n : ℕ, ∃ Y : σ → Fin n → W, Measurable Y ∧
    (∀ᵐ s ∂P, ∃ xs : Fin n → V, (sampleN X n s).1 = List.ofFn (fun i => Except.ok (xs i)) ∧ ∀ i, R (xs i) (Y s i)) ∧
    P.map Y = Measure.pi fun _ => μ

/-- a draw that cannot fail, as a computation -/
def total (draw : σ → V × σ) (s : σ) : Except Panic V × σ := (.ok (draw s).1, (draw s).2)
end

/-- the source `g`, started in a state drawn from `P`, behaves as documented for ever: every elementary draw has its documented law, and
leaves a state of law `P` that is independent of the value drawn -/
structure Regenerates {σ : Type} [MeasurableSpace σ] (g : RandSrc σ) (P : Measure σ) : Prop where
  prob : IsProbabilityMeasure P
  real : ∀ c μ, Documented c μ → Renews P F64.Is (total (g.draw c)) μ
  nat : ∀ c p, DocumentedNat c p → Renews P Eq (total (g.drawNat c)) (massMeasure p)
  int : ∀ a b : ℤ, a ≤ b → Renews P Eq (total (g.drawInt a b)) (massMeasure (uniformPMF a b))
  bool : ∀ (a : F64) (p : ℝ), a.Is p → 0 ≤ p → p ≤ 1 → Renews P Eq (total (g.genBool a)) (massMeasure (bernPMF p))

/-- for every source that behaves as documented, successive samples are independent with law `μ` -/
def SamplesIID {V W : Type} [MeasurableSpace W] (R : V → W → Prop) (X : ∀ σ : Type, RandSrc σ → σ → Except Panic V × σ)
    (μ : Measure W) : Prop :=
  ∀ (σ : Type) [MeasurableSpace σ] (g : RandSrc σ) (P : Measure σ), Regenerates g P → IID P R (X σ g) μ

/-- the source of standard normal variates `g`, started in a state drawn from `P`, behaves as documented for ever -/
structure NormalSource {σ : Type} [MeasurableSpace σ] (g : NormalRng σ) (P : Measure σ) : Prop where
  prob : IsProbabilityMeasure P
  draw : Renews P F64.Is (total g.draw) (ProbabilityTheory.gaussianReal 0 1)

/-- a source of uniform variates of the unit interval that behaves as documented for ever -/
structure UniformSource {σ : Type} [MeasurableSpace σ] (u : σ → F64 × σ) (P : Measure σ) : Prop where
  prob : IsProbabilityMeasure P
  draw : Renews P F64.Is (total u) (unif 0 1)

/-- a source of Gamma variates (shape, scale) that behaves as documented for ever -/
structure GammaSource {σ : Type} [MeasurableSpace σ] (g : GammaRng σ) (P : Measure σ) : Prop where
  prob : IsProbabilityMeasure P
  draw : ∀ (a b : F64) (α β : ℝ), a.Is α → b.Is β → 0 < α → 0 < β → Renews P F64.Is (total (g.draw a b)) (ProbabilityTheory.gammaMeasure α (1 / β))

/-- an array of f64 read as a vector -/
def VecIs {n : ℕ} (x : Fin n → F64) (w : EuclideanSpace ℝ (Fin n)) : Prop := ∀ i, (x i).Is (w i)
/-- an array of f64 read as a family of numbers -/
def ArrIs {n : ℕ} (x : Fin n → F64) (w : Fin n → ℝ) : Prop := ∀ i, (x i).Is (w i)
end Rstat.Spec
