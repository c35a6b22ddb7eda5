import Verif.Model.Params

/-! Model of /repo/src/mixture.rs. The component type `C` is abstract; the methods of its `Distribution` impl that the
mixture calls are collected in `Comp`. `[C; N]` is a list of length N. -/
namespace Rstat
open Classical

/-- A support space as the mixture uses it: `union_closure` of the `spaces` crate (trusted to be the operation given) -/
class Support (S : Type) where
  unionClosure : S → S → S

/-- closed interval of the extended reals; `union_closure` of two intervals is their interval hull (`spaces` crate, not
part of /repo; modelled by its documented meaning) -/
@[ext] structure Interval where
  lo : EReal
  hi : EReal
noncomputable instance : Support Interval := ⟨fun a b => ⟨min a.lo b.lo, max a.hi b.hi⟩⟩

/-- the methods of a component distribution used by the mixture; `X` sample values, `P` its `Params`, `σ` RNG states -/
structure Comp (C S P X σ : Type) where
  support : C → S
  params : C → P
  ofParams : P → C
  cdf : C → X → Probability
  pdf : C → X → F64
  mean : C → F64
  variance : C → F64
  sample : C → σ → X × σ

/-- src/mixture.rs:57-67 `Mixture` -/
@[ext] structure Mixture (C S : Type) where
  weights : SimplexVector
  components : List C
  support : S

/-- src/mixture.rs:19-22 `Params` -/
@[ext] structure MixtureParams (P : Type) where
  ps : SimplexVector
  componentParams : List P

/-- error of `Mixture::new`: src/mixture.rs:24-28 or the simplex error -/
inductive MixtureError where
  | incompatible
  | simplex (e : SimplexError)

namespace Mixture
variable [FP] {C S P X σ : Type} [Support S]

/-- src/mixture.rs:97-102 `compute_support`: indexing `components[0]` panics for N = 0 -/
def computeSupport (D : Comp C S P X σ) : List C → Except Panic S
  | [] => .error .index
  | c :: cs => .ok (cs.foldl (fun acc c => Support.unionClosure acc (D.support c)) (D.support c))

/-- src/mixture.rs:73-84 `new`; the support is computed before the weights are checked -/
noncomputable def new (D : Comp C S P X σ) (weights : List F64) (components : List C) :
    Except Panic (Except MixtureError (Mixture C S)) :=
  if components.length ≠ weights.length then .ok (.error .incompatible)
  else match computeSupport D components with
    | .error e => .error e
    | .ok s =>
      match SimplexVector.new weights with
      | .error e => .ok (.error (.simplex e))
      | .ok w => .ok (.ok ⟨w, components, s⟩)

/-- src/mixture.rs:86-93 `new_unchecked` -/
def newUnchecked (D : Comp C S P X σ) (weights : List F64) (components : List C) : Except Panic (Mixture C S) :=
  match computeSupport D components with
  | .error e => .error e
  | .ok s => .ok ⟨SimplexVector.newUnchecked weights, components, s⟩

/-- src/mixture.rs:95 `n_components`, N being the length of the weights -/
def nComponents (N : ℕ) : ℕ := N

/-- result of `From<Params>`: an unwound panic, use of uninitialised memory, or a mixture -/
inductive FromResult (C S : Type) where
  | panic (e : Panic)
  | undefinedBehaviour
  | ok (m : Mixture C S)

/-- src/mixture.rs:110-126 `From<Params>`: `components[i].write(c)` panics for `i ≥ N`; slots never written are read
uninitialised. `N = ps.len()` by the type `SimplexVector<N>`. -/
def ofParams (D : Comp C S P X σ) (p : MixtureParams P) : FromResult C S :=
  let N := p.ps.ps.length
  let cs := p.componentParams.map D.ofParams
  if N < cs.length then .panic .index
  else if cs.length < N then .undefinedBehaviour
  else match computeSupport D cs with
    | .error e => .panic e
    | .ok s => .ok ⟨p.ps, cs, s⟩

/-- src/mixture.rs:139-144 `params` -/
def params (D : Comp C S P X σ) (m : Mixture C S) : MixtureParams P := ⟨m.weights, m.components.map D.params⟩

/-- `components.iter().zip(weights.iter())` -/
def zipped (m : Mixture C S) : List (C × F64) := m.components.zip m.weights.ps

/-- src/mixture.rs:146-155 `cdf` -/
noncomputable def cdf (D : Comp C S P X σ) (m : Mixture C S) (x : X) : Probability :=
  Probability.newUnchecked (F64.sum (m.zipped.map fun cp => cp.2 * (D.cdf cp.1 x).val))

/-- src/mixture.rs:157-159 `sample` -/
noncomputable def sample (D : Comp C S P X σ) (pr : Profile) (g : Rng σ) (m : Mixture C S) (s : σ) :
    Except Panic X × σ :=
  match m.weights.sampleIndex pr g s with
  | (.error e, s') => (.error e, s')
  | (.ok i, s') =>
    match m.components[i]? with
    | none => (.error .index, s')
    | some c => let (x, s'') := D.sample c s'; (.ok x, s'')

/-- src/mixture.rs:173-179 `pdf` -/
noncomputable def pdf (D : Comp C S P X σ) (m : Mixture C S) (x : X) : F64 :=
  F64.sum (m.zipped.map fun cp => cp.2 * D.pdf cp.1 x)

/-- src/mixture.rs:187-192 `mean` -/
noncomputable def mean (D : Comp C S P X σ) (m : Mixture C S) : F64 :=
  m.zipped.foldl (fun acc cp => acc + cp.2 * D.mean cp.1) 0

/-- src/mixture.rs:194-210 `variance` -/
noncomputable def variance (D : Comp C S P X σ) (m : Mixture C S) : F64 :=
  let r := m.zipped.foldl (fun acc cp =>
    let cMean := D.mean cp.1
    let cVariance := D.variance cp.1
    (acc.1 + cp.2 * cMean, acc.2 + cp.2 * (cMean * cMean + cVariance))) ((0 : F64), (0 : F64))
  r.2 - r.1 * r.1

/-- src/mixture.rs:212 `skewness` -/
def skewness (_ : Mixture C S) : Except Panic F64 := .error .todo
/-- src/mixture.rs:214 `kurtosis` -/
def kurtosis (_ : Mixture C S) : Except Panic F64 := .error .todo

end Mixture
end Rstat
