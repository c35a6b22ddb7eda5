import Verif.Props.Constructors
import Verif.Props.Samplers
import Verif.Props.ParamTrait
import Verif.Model.Dist.Stubs
import Verif.Model.Dist.Serde
import Verif.Model.MvLogNormal

/-! C227–C229: trait methods that are declared but panic. C227: the methods of `Quantiles`; C228: the `cdf` family of `Distribution`;
C229: the higher moments of `UvMoments`. C198: sampling (continued). C231: constructors of the multivariate log-normal. -/
set_option linter.unusedSectionVars false
namespace Rstat
open F64 Spec

namespace Spec
/-- every provided method of `Quantiles` panics, at every argument -/
def QuantilesPanic [FP] (Q : Probability → Except Panic F64) : Prop :=
  (∀ p, ∃ e, Q p = .error e) ∧ (∀ p, ∃ e, cquantileE Q p = .error e) ∧ (∃ e, lowerQuartileE Q = .error e) ∧ (∃ e, upperQuartileE Q = .error e) ∧
  (∃ e, iqrE Q = .error e) ∧ (∃ e, lowerFenceE Q = .error e) ∧ ∃ e, upperFenceE Q = .error e
/-- every provided method of `Quantiles` returns a value -/
def QuantilesReturn [FP] (Q : Probability → Except Panic F64) : Prop :=
  (∀ p, ∃ x, Q p = .ok x) ∧ (∀ p, ∃ x, cquantileE Q p = .ok x) ∧ (∃ x, lowerQuartileE Q = .ok x) ∧ (∃ x, upperQuartileE Q = .ok x) ∧
  (∃ x, iqrE Q = .ok x) ∧ (∃ x, lowerFenceE Q = .ok x) ∧ ∃ x, upperFenceE Q = .ok x
/-- `cdf`, `ccdf`, `log_cdf` and `log_ccdf` panic at every argument -/
def CdfPanics [FP] {X : Type} (cdf : X → Except Panic Probability) : Prop :=
  ∀ x, (∃ e, cdf x = .error e) ∧ (∃ e, ccdfE cdf x = .error e) ∧ (∃ e, logCdfE cdf x = .error e) ∧ ∃ e, logCcdfE cdf x = .error e
end Spec

section
variable [FP]

/-- if `quantile` panics everywhere, so do the six methods that call it -/
theorem quantilesPanic_of {Q : Probability → Except Panic F64} (h : ∀ p, ∃ e, Q p = .error e) : QuantilesPanic Q := by
  have hl : ∃ e, lowerQuartileE Q = .error e := h _
  have hu : ∃ e, upperQuartileE Q = .error e := h _
  refine ⟨h, fun p => h _, hl, hu, ?_, ?_, ?_⟩
  · obtain ⟨e, he⟩ := hu; exact ⟨e, by unfold iqrE; rw [he]; rfl⟩
  · obtain ⟨e, he⟩ := hl; exact ⟨e, by unfold lowerFenceE; rw [he]; rfl⟩
  · obtain ⟨e, he⟩ := hu; exact ⟨e, by unfold upperFenceE; rw [he]; rfl⟩

/-- the methods agree with those of Model/Traits (C23) when `quantile` does not panic -/
theorem quantilesE_pure (Q : Probability → F64) :
    lowerQuartileE (fun p => .ok (Q p)) = .ok (lowerQuartile Q) ∧ upperQuartileE (fun p => .ok (Q p)) = .ok (upperQuartile Q) ∧
    iqrE (fun p => .ok (Q p)) = .ok (iqr Q) ∧ lowerFenceE (fun p => .ok (Q p)) = .ok (lowerFence Q) ∧
    upperFenceE (fun p => .ok (Q p)) = .ok (upperFence Q) := ⟨rfl, rfl, rfl, rfl, rfl⟩

theorem quantilesReturn_of (Q : Probability → F64) : QuantilesReturn (fun p => .ok (Q p)) :=
  ⟨fun p => ⟨_, rfl⟩, fun p => ⟨_, rfl⟩, ⟨_, rfl⟩, ⟨_, rfl⟩, ⟨_, rfl⟩, ⟨_, rfl⟩, ⟨_, rfl⟩⟩

/-- C227 (violated): for twenty-five of the thirty distributions that implement `Quantiles`, the quantile function, its complement, the
quartiles, the interquartile range and the fences panic for every distribution and every probability. -/
theorem C227_quantiles_violated :
    (∀ d : Arcsine, QuantilesPanic d.quantile) ∧ (∀ d : Bernoulli, QuantilesPanic d.quantile) ∧ (∀ d : BetaDist, QuantilesPanic d.quantile) ∧
    (∀ d : Binomial, QuantilesPanic d.quantile) ∧ (∀ d : Chi, QuantilesPanic d.quantile) ∧ (∀ d : ChiSq, QuantilesPanic d.quantile) ∧
    (∀ d : Cosine, QuantilesPanic d.quantile) ∧ (∀ d : DegenerateF, QuantilesPanic d.quantile) ∧ (∀ d : DegenerateI, QuantilesPanic d.quantile) ∧
    (∀ d : Frechet, QuantilesPanic d.quantile) ∧ (∀ d : Geometric, QuantilesPanic d.quantile) ∧
    (∀ d : GeneralisedExtremeValue, QuantilesPanic d.quantile) ∧ (∀ d : GeneralisedPareto, QuantilesPanic d.quantile) ∧
    (∀ d : Gumbel, QuantilesPanic d.quantile) ∧ (∀ d : Kumaraswamy, QuantilesPanic d.quantile) ∧ (∀ d : Laplace, QuantilesPanic d.quantile) ∧
    (∀ d : Levy, QuantilesPanic d.quantile) ∧ (∀ d : Logistic, QuantilesPanic d.quantile) ∧ (∀ d : LogNormal, QuantilesPanic d.quantile) ∧
    (∀ d : Pareto, QuantilesPanic d.quantile) ∧ (∀ d : Poisson, QuantilesPanic d.quantile) ∧ (∀ d : Rayleigh, QuantilesPanic d.quantile) ∧
    (∀ d : StudentT, QuantilesPanic d.quantile) ∧ (∀ d : Triangular, QuantilesPanic d.quantile) ∧ ∀ d : Weibull, QuantilesPanic d.quantile := by
  refine ⟨?_, ?_, ?_, ?_, ?_, ?_, ?_, ?_, ?_, ?_, ?_, ?_, ?_, ?_, ?_, ?_, ?_, ?_, ?_, ?_, ?_, ?_, ?_, ?_, ?_⟩ <;>
    exact fun d => quantilesPanic_of fun p => ⟨_, rfl⟩

/-- C227 (partial): the other five return. Missing: the twenty-five of `C227_quantiles_violated`. -/
theorem C227_quantiles_partial (u : UvNormal) (c : Cauchy) (e : Exponential) (f : UniformF) {pr : Profile} {lb : ℤ} {w : ℕ} {i : UniformI}
    (h : UniformI.new pr lb w = .ok (.ok i)) :
    QuantilesReturn (fun p => .ok (u.quantile p)) ∧ QuantilesReturn (fun p => .ok (c.quantile p)) ∧ QuantilesReturn (fun p => .ok (e.quantile p)) ∧
    QuantilesReturn (fun p => .ok (f.quantile p)) ∧ QuantilesReturn (i.quantile pr) := by
  refine ⟨quantilesReturn_of _, quantilesReturn_of _, quantilesReturn_of _, quantilesReturn_of _, ?_⟩
  have hs : ∃ n, i.span pr = .ok n := by
    unfold UniformI.new at h
    split at h
    · cases h
    · cases hw : i64chk pr (‹ℤ› + 1) with
      | error e => rw [hw] at h; cases h
      | ok v =>
        rw [hw] at h
        cases h
        exact ⟨_, by unfold UniformI.span; rw [hw]; rfl⟩
  obtain ⟨n, hn⟩ := hs
  have : i.quantile pr = fun p => .ok (F64.ofInt i.lb + (p.val * F64.ofNat n).floor) := by
    funext p; unfold UniformI.quantile; rw [hn]; rfl
  rw [this]; exact quantilesReturn_of _

theorem cdfPanics_of {X : Type} {cdf : X → Except Panic Probability} (h : ∀ x, ∃ e, cdf x = .error e) : CdfPanics cdf := fun x => by
  obtain ⟨e, he⟩ := h x
  exact ⟨⟨e, he⟩, ⟨e, by unfold ccdfE; rw [he]; rfl⟩, ⟨e, by unfold logCdfE; rw [he]; rfl⟩, ⟨e, by unfold logCcdfE ccdfE; rw [he]; rfl⟩⟩

/-- C228 (violated): the distribution function of the Poisson law and of every multivariate law panics, for every distribution and argument,
and with it `ccdf`, `log_cdf` and `log_ccdf`. -/
theorem C228_cdf_violated {n : ℕ} :
    (∀ d : Poisson, CdfPanics d.cdf) ∧ (∀ d : Dirichlet n, CdfPanics d.cdf) ∧ (∀ d : Multinomial n, CdfPanics d.cdf) ∧
    (∀ d : MvNormal n, CdfPanics d.cdf) ∧ (∀ d : DiagNormal n, CdfPanics d.cdf) ∧ (∀ d : IsoNormal n, CdfPanics d.cdf) ∧
    (∀ d : BvNormal, CdfPanics d.cdf) ∧ (∀ d : PairedNormal, CdfPanics d.cdf) ∧
    (∀ d : MvNormal n, CdfPanics (MvLogNormal.cdf (n := n) d)) ∧ (∀ d : DiagNormal n, CdfPanics (MvLogNormal.cdf (n := n) d)) ∧
    (∀ d : IsoNormal n, CdfPanics (MvLogNormal.cdf (n := n) d)) := by
  refine ⟨?_, ?_, ?_, ?_, ?_, ?_, ?_, ?_, ?_, ?_, ?_⟩ <;> exact fun d => cdfPanics_of fun x => ⟨_, rfl⟩

/-- C228 (partial): where `cdf` returns, so do the three derived methods, with the complement and the logarithms. Missing: the laws of
`C228_cdf_violated`, and the Beta-binomial below n (C150). -/
theorem C228_cdf_derived_partial {X : Type} (cdf : X → Except Panic Probability) (x : X) (p : Probability) (h : cdf x = .ok p) :
    ccdfE cdf x = .ok p.not ∧ logCdfE cdf x = .ok p.ln ∧ logCcdfE cdf x = .ok p.not.ln := by
  unfold ccdfE logCdfE logCcdfE ccdfE; rw [h]; exact ⟨rfl, rfl, rfl⟩

/-- C229 (violated): skewness and kurtosis of mixtures, skewness, kurtosis and excess kurtosis of folded normal laws and kurtosis and excess
kurtosis of Kumaraswamy laws panic, whatever the parameters. (Lévy and point masses have no such moments; there the panic is documented.) -/
theorem C229_higher_moments_violated :
    (∀ (C S : Type) (m : Mixture C S), (∃ e, m.skewness = .error e) ∧ ∃ e, m.kurtosis = .error e) ∧
    (∀ d : FoldedNormal, (∃ e, d.skewness = .error e) ∧ (∃ e, d.kurtosis = .error e) ∧ ∃ e, d.excessKurtosis = .error e) ∧
    (∀ d : Kumaraswamy, (∃ e, d.kurtosis = .error e) ∧ ∃ e, d.excessKurtosis = .error e) :=
  ⟨fun _ _ _ => ⟨⟨_, rfl⟩, ⟨_, rfl⟩⟩, fun _ => ⟨⟨_, rfl⟩, ⟨_, rfl⟩, ⟨_, rfl⟩⟩, fun _ => ⟨⟨_, rfl⟩, ⟨_, rfl⟩⟩⟩

/-- C229 (partial): a point mass has mean k, variance 0 and skewness 0, and its undefined kurtosis is refused, for f64 and i64 -/
theorem C229_point_mass_partial (k : F64) (z : ℤ) :
    ((DegenerateF.new k).mean = k ∧ (DegenerateF.new k).variance = fin 0 ∧ (DegenerateF.new k).skewness = fin 0 ∧
      (DegenerateF.new k).kurtosis = .error .undefined ∧ (DegenerateF.new k).excessKurtosis = .error .undefined) ∧
    ((DegenerateI.new z).mean = ofInt z ∧ (DegenerateI.new z).variance = fin 0 ∧ (DegenerateI.new z).skewness = fin 0 ∧
      (DegenerateI.new z).kurtosis = .error .undefined ∧ (DegenerateI.new z).excessKurtosis = .error .undefined) :=
  ⟨⟨rfl, rfl, rfl, rfl, rfl⟩, rfl, rfl, rfl, rfl, rfl⟩

/-- C227 (partial): where `quantile` answers, so do the methods derived from it, with the values the documentation gives: `cquantile(p)` is the
quantile at `1 - p`, the quartiles are those at 1/4 and 3/4, the range is their difference and the fences lie 3/2 ranges beyond them; where
`quantile` panics at `1 - p`, `cquantile(p)` panics in the same way. -/
theorem C227_derived_partial {Q : Probability → Except Panic F64} :
    (∀ (p : Probability) v, Q ⟨1 - p.val⟩ = .ok v → cquantileE Q p = .ok v) ∧
    (∀ (p : Probability) e, Q ⟨1 - p.val⟩ = .error e → cquantileE Q p = .error e) ∧
    ∀ l u, Q ⟨F64.fin (1 / 4)⟩ = .ok l → Q ⟨F64.fin (3 / 4)⟩ = .ok u →
      lowerQuartileE Q = .ok l ∧ upperQuartileE Q = .ok u ∧ iqrE Q = .ok (u - l) ∧ lowerFenceE Q = .ok (l - F64.fin (3 / 2) * (u - l)) ∧
      upperFenceE Q = .ok (u + F64.fin (3 / 2) * (u - l)) := by
  refine ⟨fun p v h => h, fun p v h => h, fun l u hl hu => ?_⟩
  have hl' : lowerQuartileE Q = .ok l := hl
  have hu' : upperQuartileE Q = .ok u := hu
  have hi : iqrE Q = .ok (u - l) := by unfold iqrE; rw [hu', hl']; rfl
  exact ⟨hl', hu', hi, by unfold lowerFenceE; rw [hl', hi]; rfl, by unfold upperFenceE; rw [hu', hi]; rfl⟩

open Classical in
/-- C227 (non-vacuity): a quantile function that answers at the quartiles and panics at the end points -/
example : (iqrE fun p => if p = ⟨F64.fin (1 / 4)⟩ then .ok 1 else if p = ⟨F64.fin (3 / 4)⟩ then .ok 5 else .error .undefined) = .ok (5 - 1) := by
  refine (C227_derived_partial.2.2 1 5 ?_ ?_).2.2.1
  · exact if_pos rfl
  · rw [if_neg (fun h => by have := congrArg (fun p : Probability => p.val.toReal) h; norm_num [F64.toReal] at this), if_pos rfl]

/-! ### C198 continued -/

/-- a sampler that panics makes `sample_n` panic, unless nothing is asked for -/
theorem sampleNE_panic {σ X : Type} {sample : σ → Except Panic X × σ} (h : ∀ s, ∃ e, (sample s).1 = .error e) (n : ℕ) (s : σ) :
    (∃ e, (sampleNE sample (n + 1) s).1 = .error e) ∧ sampleNE sample 0 s = (.ok [], s) := by
  refine ⟨?_, rfl⟩
  obtain ⟨e, he⟩ := h s
  refine ⟨e, ?_⟩
  unfold sampleNE
  rcases hs : sample s with ⟨r, s'⟩
  rw [hs] at he; cases he; rfl

/-- C198 (violated): the multinomial has no sampler either, and `sample_n(n)` of every distribution without a sampler panics for n ≥ 1. -/
theorem C198_sample_n_violated {N : ℕ} {σ : Type} (s : σ) (n : ℕ) :
    (∀ d : Multinomial N, (d.sample s).1 = .error .unimplemented ∧ ∃ e, (sampleNE d.sample (n + 1) s).1 = .error e) ∧
    (∀ d : Arcsine, ∃ e, (sampleNE (fun s => d.sample s) (n + 1) s).1 = .error e) ∧
    (∀ d : BetaBinomial, ∃ e, (sampleNE (fun s => d.sample s) (n + 1) s).1 = .error e) ∧
    (∀ d : BetaPrime, ∃ e, (sampleNE (fun s => d.sample s) (n + 1) s).1 = .error e) ∧
    (∀ d : Chi, ∃ e, (sampleNE (fun s => d.sample s) (n + 1) s).1 = .error e) ∧
    (∀ d : Cosine, ∃ e, (sampleNE (fun s => d.sample s) (n + 1) s).1 = .error e) ∧
    (∀ d : Erlang, ∃ e, (sampleNE (fun s => d.sample s) (n + 1) s).1 = .error e) ∧
    (∀ d : GeneralisedExtremeValue, ∃ e, (sampleNE (fun s => d.sample s) (n + 1) s).1 = .error e) ∧
    (∀ d : GeneralisedPareto, ∃ e, (sampleNE (fun s => d.sample s) (n + 1) s).1 = .error e) ∧
    (∀ d : Gumbel, ∃ e, (sampleNE (fun s => d.sample s) (n + 1) s).1 = .error e) ∧
    (∀ d : InvGamma, ∃ e, (sampleNE (fun s => d.sample s) (n + 1) s).1 = .error e) ∧
    (∀ d : Levy, ∃ e, (sampleNE (fun s => d.sample s) (n + 1) s).1 = .error e) ∧
    (∀ d : Logistic, ∃ e, (sampleNE (fun s => d.sample s) (n + 1) s).1 = .error e) ∧
    (∀ d : Rayleigh, ∃ e, (sampleNE (fun s => d.sample s) (n + 1) s).1 = .error e) := by
  refine ⟨fun d => ⟨rfl, (sampleNE_panic (fun _ => ⟨_, rfl⟩) n s).1⟩, ?_, ?_, ?_, ?_, ?_, ?_, ?_, ?_, ?_, ?_, ?_, ?_, ?_⟩ <;>
    exact fun d => (sampleNE_panic (fun _ => ⟨_, rfl⟩) n s).1

/-- C198 (partial): when the first `n` draws return, `sample_n(n)` returns exactly these draws, each taken from the state its predecessor left,
and leaves the generator in the state after the last; a panic at draw `k < n` (none before) ends the call with that panic. -/
theorem C198_sample_n_partial {σ X : Type} (sample : σ → Except Panic X × σ) (n : ℕ) (s : σ) :
    (∀ x : Fin n → X, (∀ i : Fin n, (sample ((fun t => (sample t).2)^[i] s)).1 = .ok (x i)) →
      sampleNE sample n s = (.ok (List.ofFn x), (fun t => (sample t).2)^[n] s)) ∧
    ∀ k < n, (∀ i < k, ∃ x, (sample ((fun t => (sample t).2)^[i] s)).1 = .ok x) → ∀ e, (sample ((fun t => (sample t).2)^[k] s)).1 = .error e →
      sampleNE sample n s = (.error e, (fun t => (sample t).2)^[k + 1] s) := by
  induction n generalizing s with
  | zero => exact ⟨fun x _ => by simp [sampleNE], fun k hk => absurd hk (by omega)⟩
  | succ n ih =>
    obtain ⟨i1, i2⟩ := ih (sample s).2
    constructor
    · intro x hx
      have h0 : (sample s).1 = .ok (x 0) := hx 0
      have hr := i1 (fun i => x i.succ) fun i => by have := hx i.succ; rwa [Fin.val_succ, Function.iterate_succ_apply] at this
      unfold sampleNE
      rcases hs : sample s with ⟨r, s'⟩
      rw [hs] at h0 hr
      cases h0
      dsimp only at hr ⊢
      rw [hr, Function.iterate_succ_apply, hs, List.ofFn_succ]
    · intro k hk hx e he
      unfold sampleNE
      rcases hs : sample s with ⟨r, s'⟩
      cases k with
      | zero =>
        have h0 : (sample s).1 = .error e := he
        rw [hs] at h0; cases h0
        rw [Function.iterate_succ_apply, hs]; rfl
      | succ k =>
        obtain ⟨x, h0⟩ : ∃ x, (sample s).1 = .ok x := hx 0 (by omega)
        have hr := i2 k (by omega) (fun i hi => by have := hx (i + 1) (by omega); rwa [Function.iterate_succ_apply] at this) e
          (by rwa [Function.iterate_succ_apply] at he)
        rw [hs] at h0 hr; cases h0
        dsimp only at hr ⊢
        rw [hr, Function.iterate_succ_apply (fun t => (sample t).2) (k + 1) s, hs]
/-- C198 (non-vacuity): a counter whose third draw panics: two draws return, three panic -/
example : sampleNE (fun k : ℕ => if k = 2 then (.error .todo, k) else ((.ok (10 * k) : Except Panic ℕ), k + 1)) 2 0 = (.ok [0, 10], 2) ∧
    sampleNE (fun k : ℕ => if k = 2 then (.error .todo, k) else ((.ok (10 * k) : Except Panic ℕ), k + 1)) 3 0 = (.error .todo, 2) := ⟨rfl, rfl⟩

/-! ### C231 -/

theorem map_ok_iff {ε α β : Type} {x : Except ε α} {f : α → β} {b : β} : x.map f = .ok b ↔ ∃ a, x = .ok a ∧ f a = b := by
  cases x <;> simp [Except.map]

/-- C231: the multivariate log-normal constructors accept exactly what the constructors of the underlying normal law accept, wrap the law these
build, and agree with their unchecked versions. -/
theorem C231_lognormal_constructors [Lapack] {n : ℕ} :
    OnlyChecks (fun a : (Fin n → F64) × (Fin n → Fin n → F64) => MvLogN.new a.1 a.2) (fun a => MvLogN.newUnchecked a.1 a.2)
      (fun a => ∀ i j, 0 ≤ a.2 i j) ∧
    OnlyChecks (fun a : (Fin n → F64) × (Fin n → F64) => MvLogN.diagonal a.1 a.2) (fun a => MvLogN.diagonalUnchecked a.1 a.2)
      (fun a => ∀ i, 0 < a.2 i) ∧
    OnlyChecks (fun a : (Fin n → F64) × F64 => MvLogN.isotropic a.1 a.2) (fun a => MvLogN.isotropicUnchecked a.1 a.2) (fun a => 0 < a.2) ∧
    OnlyChecks (fun a : F64 × F64 => MvLogN.homogeneous n a.1 a.2) (fun a => MvLogN.homogeneousUnchecked n a.1 a.2)
      (fun a => 0 < n ∧ 0 < a.2) ∧
    (∀ (mu : Fin n → F64) S, MvLogN.newUnchecked mu S = MvLogN.ofNormal (MvNormal.newUnchecked mu S)) ∧
    (∀ mu S : Fin n → F64, MvLogN.diagonalUnchecked mu S = MvLogN.ofNormal (DiagNormal.newUnchecked mu S)) ∧
    (∀ (mu : Fin n → F64) s, MvLogN.isotropicUnchecked mu s = MvLogN.ofNormal (IsoNormal.newUnchecked mu s)) ∧
    (∀ mu s : F64, MvLogN.homogeneousUnchecked n mu s = MvLogN.isotropicUnchecked (fun _ => mu) s) := by
  refine ⟨onlyChecks_of fun a d => ?_, onlyChecks_of fun a d => ?_, onlyChecks_of fun a d => ?_, onlyChecks_of fun a d => ?_,
    fun _ _ => rfl, fun _ _ => rfl, fun _ _ => rfl, fun _ _ => rfl⟩
  · refine map_ok_iff.trans ⟨fun ⟨x, h, e⟩ => ?_, fun ⟨h, e⟩ => ⟨_, MvNormal.new_ok.2 ⟨h, rfl⟩, e.symm⟩⟩
    obtain ⟨h1, h2⟩ := MvNormal.new_ok.1 h
    exact ⟨h1, by rw [← e, h2]; rfl⟩
  · refine map_ok_iff.trans ⟨fun ⟨x, h, e⟩ => ?_, fun ⟨h, e⟩ => ⟨_, DiagNormal.new_ok.2 ⟨h, rfl⟩, e.symm⟩⟩
    obtain ⟨h1, h2⟩ := DiagNormal.new_ok.1 h
    exact ⟨h1, by rw [← e, h2]; rfl⟩
  · refine map_ok_iff.trans ⟨fun ⟨x, h, e⟩ => ?_, fun ⟨h, e⟩ => ⟨_, IsoNormal.new_ok.2 ⟨h, rfl⟩, e.symm⟩⟩
    obtain ⟨h1, h2⟩ := IsoNormal.new_ok.1 h
    exact ⟨h1, by rw [← e, h2]; rfl⟩
  · refine map_ok_iff.trans ⟨fun ⟨x, h, e⟩ => ?_, fun ⟨h, e⟩ => ⟨_, IsoNormal.homogeneous_ok.2 ⟨h.1, h.2, rfl⟩, e.symm⟩⟩
    obtain ⟨h0, h1, h2⟩ := IsoNormal.homogeneous_ok.1 h
    exact ⟨⟨h0, h1⟩, by rw [← e, h2]; rfl⟩

/-- C231: `standard()` is the law of independent standard log-normals, and needs at least one dimension -/
theorem C231_lognormal_standard (n : ℕ) :
    MvLogN.standard (n + 1) = .ok (MvLogN.standardUnchecked (n + 1)) ∧ (∃ e, MvLogN.standard 0 = .error e) ∧
    (MvLogN.standardUnchecked n).params IsoNormal.params = (fun _ => fin 0, fin 1) := by
  have h1 : (0 : F64) < 1 := (Is.lt_iff Is.zero Is.one).2 one_pos
  refine ⟨map_ok_iff.2 ⟨_, IsoNormal.homogeneous_ok.2 ⟨n.succ_pos, h1, rfl⟩, rfl⟩, ?_, rfl⟩
  cases h : MvLogN.standard 0 with
  | error e => exact ⟨e, rfl⟩
  | ok d =>
    obtain ⟨x, hx, -⟩ := map_ok_iff.1 h
    exact absurd (IsoNormal.homogeneous_ok.1 hx).1 (lt_irrefl 0)

/-- C231, C18: `params()` gives back the parameters, and the distribution rebuilt from them is the same one, for the three covariances -/
theorem C231_lognormal_params [Lapack] {n : ℕ} :
    (∀ mu S (d : MvLogN (MvNormal n)), MvLogN.new mu S = .ok d →
      d.params MvNormal.params = (mu, S) ∧ MvLogN.ofParams MvNormal.ofParams (d.params MvNormal.params) = d) ∧
    (∀ mu S (d : MvLogN (DiagNormal n)), MvLogN.diagonal mu S = .ok d →
      d.params DiagNormal.params = (mu, S) ∧ MvLogN.ofParams DiagNormal.ofParams (d.params DiagNormal.params) = d) ∧
    (∀ mu s (d : MvLogN (IsoNormal n)), MvLogN.isotropic mu s = .ok d →
      d.params IsoNormal.params = (mu, s) ∧ MvLogN.ofParams IsoNormal.ofParams (d.params IsoNormal.params) = d) := by
  refine ⟨fun mu S d h => ?_, fun mu S d h => ?_, fun mu s d h => ?_⟩
  · obtain ⟨x, hx, rfl⟩ := map_ok_iff.1 h
    obtain ⟨-, rfl⟩ := MvNormal.new_ok.1 hx
    exact ⟨rfl, rfl⟩
  · obtain ⟨x, hx, rfl⟩ := map_ok_iff.1 h
    obtain ⟨-, rfl⟩ := DiagNormal.new_ok.1 hx
    exact ⟨rfl, rfl⟩
  · obtain ⟨x, hx, rfl⟩ := map_ok_iff.1 h
    obtain ⟨-, rfl⟩ := IsoNormal.new_ok.1 hx
    exact ⟨rfl, rfl⟩
end

section
attribute [local instance] exactFP exactFP_exact
/-- `Weibull::new(2, 3)` exists and its quartiles panic; `LogNormal::diagonal([0, 0], [1, 2])` exists -/
example : (∃ d, Weibull.new (fin 2) (fin 3) = .ok d ∧ QuantilesPanic d.quantile) ∧
    ∃ d, MvLogN.diagonal (n := 2) (fun _ => fin 0) ![fin 1, fin 2] = .ok d := by
  refine ⟨⟨⟨fin 2, fin 3⟩, Weibull.new_ok.2 ⟨fin_lt_fin.2 (by norm_num), fin_lt_fin.2 (by norm_num), rfl⟩, quantilesPanic_of fun p => ⟨_, rfl⟩⟩,
    _, map_ok_iff.2 ⟨_, DiagNormal.new_ok.2 ⟨fun i => ?_, rfl⟩, rfl⟩⟩
  fin_cases i
  · exact fin_lt_fin.2 (by norm_num)
  · exact fin_lt_fin.2 (by norm_num)
end
end Rstat
