import Verif.Model.Params

/-! Model of the provided (default) trait methods: /repo/src/lib.rs, statistics.rs, fitting.rs, distance.rs.

Pairs of methods whose defaults call each other are modelled by fuelled evaluation: `none` means the call
stack is exhausted before an answer is produced; "the call returns `y`" is `∃ fuel, eval fuel x = some y`. -/
namespace Rstat
open Classical

/-- Two trait methods `a`, `b` with provided bodies `a(x) = ofB (b (argA x))` and `b(x) = ofA (a (argB x))`,
and the implementor's overrides. -/
structure MethodPair (X A B : Type) where
  a? : Option (X → A)
  b? : Option (X → B)
  argA : X → X
  ofB : B → A
  argB : X → X
  ofA : A → B

namespace MethodPair
variable {X A B : Type}
mutual
/-- call of method `a` with a bounded call stack -/
def callA (m : MethodPair X A B) : ℕ → X → Option A
  | 0, _ => none
  | n + 1, x => match m.a? with
    | some f => some (f x)
    | none => (callB m n (m.argA x)).map m.ofB
/-- call of method `b` with a bounded call stack -/
def callB (m : MethodPair X A B) : ℕ → X → Option B
  | 0, _ => none
  | n + 1, x => match m.b? with
    | some g => some (g x)
    | none => (callA m n (m.argB x)).map m.ofA
end
/-- the call returns `y` -/
def RetA (m : MethodPair X A B) (x : X) (y : A) : Prop := ∃ n, m.callA n x = some y
/-- the call returns `y` -/
def RetB (m : MethodPair X A B) (x : X) (y : B) : Prop := ∃ n, m.callB n x = some y
end MethodPair

section
variable [FP] {X : Type}

/-- src/lib.rs:132-134 (`cdf`) and :144-147 with :64-71 (`log_cdf`) -/
noncomputable def cdfPair (cdf? : Option (X → Probability)) (logCdf? : Option (X → F64)) :
    MethodPair X Probability F64 :=
  ⟨cdf?, logCdf?, id, fun l => Probability.newUnchecked l.exp, id, fun p => p.ln⟩

/-- an implementation of `Distribution`, as far as the cdf family goes -/
structure DistImpl (X : Type) where
  cdf? : Option (X → Probability)
  logCdf? : Option (X → F64)
  ccdf? : Option (X → Probability)
  logCcdf? : Option (X → F64)

namespace DistImpl
variable (d : DistImpl X)
/-- src/lib.rs:132-134 -/
noncomputable def cdf (n : ℕ) (x : X) : Option Probability := (cdfPair d.cdf? d.logCdf?).callA n x
/-- src/lib.rs:144-147 -/
noncomputable def logCdf (n : ℕ) (x : X) : Option F64 := (cdfPair d.cdf? d.logCdf?).callB n x
/-- src/lib.rs:142 -/
noncomputable def ccdf (n : ℕ) (x : X) : Option Probability :=
  match d.ccdf? with
  | some f => some (f x)
  | none => (d.cdf n x).map Probability.not
/-- src/lib.rs:149-152 -/
noncomputable def logCcdf (n : ℕ) (x : X) : Option F64 :=
  match d.logCcdf? with
  | some f => some (f x)
  | none => (d.ccdf n x).map Probability.ln
end DistImpl

/-- src/lib.rs:217-219 (`pmf`), :221-224 (`log_pmf`) -/
noncomputable def pmfPair (pmf? : Option (X → Probability)) (logPmf? : Option (X → F64)) :
    MethodPair X Probability F64 :=
  ⟨pmf?, logPmf?, id, fun l => Probability.newUnchecked l.exp, id, fun p => p.ln⟩

/-- src/lib.rs:253 (`pdf`), :255-258 (`log_pdf`) -/
noncomputable def pdfPair (pdf? logPdf? : Option (X → F64)) : MethodPair X F64 F64 :=
  ⟨pdf?, logPdf?, id, F64.exp, id, F64.ln⟩

/-- src/statistics.rs:14-18 (`variance`), :21 (`standard_deviation`) -/
noncomputable def variancePair (variance? std? : Option F64) : MethodPair Unit F64 F64 :=
  ⟨variance?.map fun v _ => v, std?.map fun v _ => v, id, fun std => std * std, id, F64.sqrt⟩

/-- src/statistics.rs:27 (`kurtosis`), :30 (`excess_kurtosis`) -/
noncomputable def kurtosisPair (kurtosis? excess? : Option F64) : MethodPair Unit F64 F64 :=
  ⟨kurtosis?.map fun v _ => v, excess?.map fun v _ => v, id, fun e => e + 3, id, fun k => k - 3⟩

/-- src/statistics.rs:83 (`quantile`), :86 (`cquantile`) -/
noncomputable def quantilePair (quantile? cquantile? : Option (Probability → F64)) : MethodPair Probability F64 F64 :=
  ⟨quantile?, cquantile?, Probability.not, id, Probability.not, id⟩

/-- src/fitting.rs:17-19 (`likelihood`), :22-24 (`log_likelihood`) -/
noncomputable def likelihoodPair (lik? logLik? : Option (List X → F64)) : MethodPair (List X) F64 F64 :=
  ⟨lik?, logLik?, id, F64.exp, id, F64.ln⟩

/-- src/distance.rs:11 (`d_mahalanobis`), :15 (`d_mahalanobis_squared`) -/
noncomputable def mahalanobisPair (d? dsq? : Option (X → F64)) : MethodPair X F64 F64 :=
  ⟨d?, dsq?, id, F64.sqrt, id, fun d => d.powi 2⟩

/-! Quantile-derived statistics, given the implementor's `quantile` (src/statistics.rs:89-115) -/
/-- src/statistics.rs:89 -/
noncomputable def lowerQuartile (Q : Probability → F64) : F64 := Q (Probability.newUnchecked (F64.fin (1 / 4)))
/-- src/statistics.rs:96 -/
noncomputable def median (Q : Probability → F64) : F64 := Q Probability.half
/-- src/statistics.rs:99 -/
noncomputable def upperQuartile (Q : Probability → F64) : F64 := Q (Probability.newUnchecked (F64.fin (3 / 4)))
/-- src/statistics.rs:103 -/
noncomputable def iqr (Q : Probability → F64) : F64 := upperQuartile Q - lowerQuartile Q
/-- src/statistics.rs:109 -/
noncomputable def lowerFence (Q : Probability → F64) : F64 := lowerQuartile Q - F64.fin (3 / 2) * iqr Q
/-- src/statistics.rs:115 -/
noncomputable def upperFence (Q : Probability → F64) : F64 := upperQuartile Q + F64.fin (3 / 2) * iqr Q

/-- src/statistics.rs:43-52 default `variance` of `MvMoments` -/
def mvVariance {N : ℕ} (cov : Fin N → Fin N → F64) : Fin N → F64 := fun i => cov i i
/-- src/statistics.rs:62-73 default `correlation` of `MvMoments` -/
noncomputable def mvCorrelation {N : ℕ} (cov : Fin N → Fin N → F64) : Fin N → Fin N → F64 :=
  fun i j => cov i j * (cov i i * cov j j).sqrt
/-- src/lib.rs:192 `Multivariate::dimensionality` -/
def dimensionality (N : ℕ) : ℕ := N
end

/-! ### sampling -/
section
variable {σ X : Type}
/-- src/lib.rs:158-160 `sample_n`: `(0..n).map(|_| self.sample(rng)).collect()` -/
def sampleN (sample : σ → X × σ) : ℕ → σ → List X × σ
  | 0, s => ([], s)
  | n + 1, s =>
    let (x, s') := sample s
    let (xs, s'') := sampleN sample n s'
    (x :: xs, s'')

/-- src/lib.rs:37-40, :164-166 `Sampler`: borrows the RNG, so its state is the RNG state -/
structure Sampler (σ X : Type) where
  sample : σ → X × σ
  rng : σ
/-- src/lib.rs:59 `Sampler::next` -/
def Sampler.next (it : Sampler σ X) : Option X × Sampler σ X :=
  let (x, s') := it.sample it.rng
  (some x, { it with rng := s' })
/-- src/lib.rs:61 `size_hint`: `(usize::MAX, None)` -/
def Sampler.sizeHint (_ : Sampler σ X) : ℕ × Option ℕ := (U64 - 1, none)
/-- `Iterator::take(n).collect()` of std, on a `Sampler`; stops at the first `None` -/
def Sampler.takeN : ℕ → Sampler σ X → List X × Sampler σ X
  | 0, it => ([], it)
  | n + 1, it =>
    match it.next with
    | (none, it') => ([], it')
    | (some x, it') => let (xs, it'') := takeN n it'; (x :: xs, it'')
end

/-! ### convolution -/
/-- src/lib.rs:294-306 `convolve_many`. `conv0` is `Self::convolve`, `conv` is `Output::convolve`. The check
`n > 1` and its `with_target("n")` error are modelled as they are; `pop` removes the last element. -/
noncomputable def convolveMany {S D O : Type} (conv0 : S → D → Except Err O) (conv : O → D → Except Err O)
    (self : S) (rvs : List D) : Except Err O :=
  match (Cst.greaterThan (s := .usize) (1 : ℕ)).check rvs.length with
  | .error e => .error (.uce _ (e.withTarget "n"))
  | .ok _ =>
    match rvs.getLast? with
    | none => .error (.uce _ (UCE.new rvs.length (Cst.greaterThan (s := .usize) (1 : ℕ))))
    | some last => rvs.dropLast.foldl (fun acc rv => acc.bind fun d => conv d rv) (conv0 self last)

end Rstat
