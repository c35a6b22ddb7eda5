import Verif.Props.Multinomial
import Verif.Props.MvNormal
import Verif.Props.Dist.Uniform
import Verif.Props.Dist.Degenerate
import Verif.Props.Dist.Arcsine
import Verif.Props.Dist.Cauchy
import Verif.Props.Dist.Exponential
import Verif.Props.Dist.Laplace
import Verif.Props.Dist.Logistic
import Verif.Props.Dist.Gumbel
import Verif.Props.Dist.Weibull
import Verif.Props.Dist.Frechet
import Verif.Props.Dist.Rayleigh
import Verif.Props.Dist.Pareto
import Verif.Props.Dist.GEV
import Verif.Props.Dist.Kumaraswamy
import Verif.Props.Dist.Cosine
import Verif.Props.Dist.Triangular
import Verif.Props.Dist.Bernoulli
import Verif.Props.Dist.Binomial
import Verif.Props.Dist.Geometric
import Verif.Props.Dist.Poisson
import Verif.Props.Dist.Categorical
import Verif.Props.Dist.Gamma
import Verif.Props.Dist.Chi
import Verif.Props.Dist.Erlang
import Verif.Props.Dist.Beta
import Verif.Props.Dist.BetaPrime
import Verif.Props.Dist.FDist
import Verif.Props.Dist.StudentT
import Verif.Props.Dist.BetaBinomial
import Verif.Props.Dist.Levy
import Verif.Props.Dist.LogNormal
import Verif.Props.Dist.FoldedNormal
import Verif.Props.Dist.InvNormal
import Verif.Model.Dist.Params

/-! Property C18: constructors store what they were given, accept exactly the parameters meeting their constraints, and `From<Params>` of
`params()` is the distribution itself. Everything here holds for every floating-point implementation. -/
set_option linter.unusedSectionVars false
namespace Rstat
open F64 Spec

/-- The round trip: `new a` succeeds exactly for valid `a`; what it returns has parameters `a`, and rebuilding from its parameters gives
it back. -/
def Spec.RoundTrip {A P D E : Type} (new : A → Except E D) (params : D → P) (ofParams : P → D) (val : A → P) (valid : A → Prop) : Prop :=
  ∀ a, ((∃ d, new a = .ok d) ↔ valid a) ∧ ∀ d, new a = .ok d → params d = val a ∧ ofParams (params d) = d

/-- a constructor accepting valid arguments only and applying the right function to them round trips -/
theorem roundTrip_of {A P D E : Type} {new : A → Except E D} {params : D → P} {ofParams : P → D} {val : A → P} {valid : A → Prop}
    (mk : A → D) (h : ∀ a d, new a = .ok d ↔ valid a ∧ d = mk a) (h1 : ∀ a, params (mk a) = val a) (h2 : ∀ a, ofParams (val a) = mk a) :
    RoundTrip new params ofParams val valid := by
  refine fun a => ⟨⟨?_, fun hv => ⟨_, (h a _).2 ⟨hv, rfl⟩⟩⟩, fun d hd => ?_⟩
  · rintro ⟨d, hd⟩; exact ((h a d).1 hd).1
  · obtain ⟨-, rfl⟩ := (h a d).1 hd; exact ⟨h1 a, by rw [h1, h2]⟩

section
variable [FP]
/-- C18: arcsine -/
theorem C18_arcsine_round_trip : RoundTrip (fun a : F64 × F64 => Arcsine.new a.1 a.2) Arcsine.params Arcsine.ofParams id (fun a => 0 < a.2) :=
  roundTrip_of (fun a => ⟨a.1, a.2⟩) (fun _ _ => Arcsine.new_ok) (fun _ => rfl) fun _ => rfl
/-- C18: cauchy -/
theorem C18_cauchy_round_trip : RoundTrip (fun a : F64 × F64 => Cauchy.new a.1 a.2) Cauchy.params Cauchy.ofParams id (fun a => 0 < a.2) :=
  roundTrip_of (fun a => ⟨a.1, a.2⟩) (fun _ _ => Cauchy.new_ok) (fun _ => rfl) fun _ => rfl
/-- C18: cosine -/
theorem C18_cosine_round_trip : RoundTrip (fun a : F64 × F64 => Cosine.new a.1 a.2) Cosine.params Cosine.ofParams id (fun a => 0 < a.2) :=
  roundTrip_of (fun a => ⟨a.1, a.2⟩) (fun _ _ => Cosine.new_ok) (fun _ => rfl) fun _ => rfl
/-- C18: exponential -/
theorem C18_exponential_round_trip : RoundTrip (fun a : F64 => Exponential.new a) Exponential.params Exponential.ofParams id (fun a => 0 < a) :=
  roundTrip_of (fun a => ⟨a⟩) (fun _ _ => Exponential.new_ok) (fun _ => rfl) fun _ => rfl
/-- C18: frechet -/
theorem C18_frechet_round_trip : RoundTrip (fun a : F64 => Frechet.new a) Frechet.params Frechet.ofParams id (fun a => 0 < a) :=
  roundTrip_of (fun a => ⟨a⟩) (fun _ _ => Frechet.new_ok) (fun _ => rfl) fun _ => rfl
/-- C18: gev -/
theorem C18_gev_round_trip : RoundTrip (fun a : F64 × F64 × F64 => GeneralisedExtremeValue.new a.1 a.2.1 a.2.2) GeneralisedExtremeValue.params GeneralisedExtremeValue.ofParams id (fun a => 0 < a.2.1 ∧ 0 < a.2.2) :=
  roundTrip_of (fun a => ⟨a.1, a.2.1, a.2.2⟩) (fun _ _ => GeneralisedExtremeValue.new_ok.trans and_assoc.symm) (fun _ => rfl) fun _ => rfl
/-- C18: gpd -/
theorem C18_gpd_round_trip : RoundTrip (fun a : F64 × F64 × F64 => GeneralisedPareto.new a.1 a.2.1 a.2.2) GeneralisedPareto.params GeneralisedPareto.ofParams id (fun a => 0 < a.2.1 ∧ 0 < a.2.2) :=
  roundTrip_of (fun a => ⟨a.1, a.2.1, a.2.2⟩) (fun _ _ => GeneralisedPareto.new_ok.trans and_assoc.symm) (fun _ => rfl) fun _ => rfl
/-- C18: gumbel -/
theorem C18_gumbel_round_trip : RoundTrip (fun a : F64 × F64 => Gumbel.new a.1 a.2) Gumbel.params Gumbel.ofParams id (fun a => 0 < a.2) :=
  roundTrip_of (fun a => ⟨a.1, a.2⟩) (fun _ _ => Gumbel.new_ok) (fun _ => rfl) fun _ => rfl
/-- C18: kumaraswamy -/
theorem C18_kumaraswamy_round_trip : RoundTrip (fun a : F64 × F64 => Kumaraswamy.new a.1 a.2) Kumaraswamy.params Kumaraswamy.ofParams id (fun a => 0 < a.1 ∧ 0 < a.2) :=
  roundTrip_of (fun a => ⟨a.1, a.2⟩) (fun _ _ => Kumaraswamy.new_ok.trans and_assoc.symm) (fun _ => rfl) fun _ => rfl
/-- C18: laplace -/
theorem C18_laplace_round_trip : RoundTrip (fun a : F64 × F64 => Laplace.new a.1 a.2) Laplace.params Laplace.ofParams id (fun a => 0 < a.2) :=
  roundTrip_of (fun a => ⟨a.1, a.2⟩) (fun _ _ => Laplace.new_ok) (fun _ => rfl) fun _ => rfl
/-- C18: logistic -/
theorem C18_logistic_round_trip : RoundTrip (fun a : F64 × F64 => Logistic.new a.1 a.2) Logistic.params Logistic.ofParams id (fun a => 0 < a.2) :=
  roundTrip_of (fun a => ⟨a.1, a.2⟩) (fun _ _ => Logistic.new_ok) (fun _ => rfl) fun _ => rfl
/-- C18: pareto -/
theorem C18_pareto_round_trip : RoundTrip (fun a : F64 × F64 => Pareto.new a.1 a.2) Pareto.params Pareto.ofParams id (fun a => 0 < a.2) :=
  roundTrip_of (fun a => ⟨a.1, a.2⟩) (fun _ _ => Pareto.new_ok) (fun _ => rfl) fun _ => rfl
/-- C18: rayleigh -/
theorem C18_rayleigh_round_trip : RoundTrip (fun a : F64 => Rayleigh.new a) Rayleigh.params Rayleigh.ofParams id (fun a => 0 < a) :=
  roundTrip_of (fun a => ⟨a⟩) (fun _ _ => Rayleigh.new_ok) (fun _ => rfl) fun _ => rfl
/-- C18: triangular -/
theorem C18_triangular_round_trip : RoundTrip (fun a : F64 × F64 × F64 => Triangular.new a.1 a.2.1 a.2.2) Triangular.params Triangular.ofParams id (fun a => 0 < a.2.1 ∧ 0 < a.2.2) :=
  roundTrip_of (fun a => ⟨a.1, a.2.1, a.2.2⟩) (fun _ _ => Triangular.new_ok.trans and_assoc.symm) (fun _ => rfl) fun _ => rfl
/-- C18: weibull -/
theorem C18_weibull_round_trip : RoundTrip (fun a : F64 × F64 => Weibull.new a.1 a.2) Weibull.params Weibull.ofParams id (fun a => 0 < a.1 ∧ 0 < a.2) :=
  roundTrip_of (fun a => ⟨a.1, a.2⟩) (fun _ _ => Weibull.new_ok.trans and_assoc.symm) (fun _ => rfl) fun _ => rfl
/-- C18: poisson -/
theorem C18_poisson_round_trip : RoundTrip (fun a : F64 => Poisson.new a) Poisson.params Poisson.ofParams id (fun a => 0 < a) :=
  roundTrip_of (fun a => ⟨a⟩) (fun _ _ => Poisson.new_ok) (fun _ => rfl) fun _ => rfl
/-- C18: gamma -/
theorem C18_gamma_round_trip : RoundTrip (fun a : F64 × F64 => Gamma.new a.1 a.2) Gamma.params Gamma.ofParams id (fun a => 0 < a.1 ∧ 0 < a.2) :=
  roundTrip_of (fun a => ⟨a.1, a.2⟩) (fun _ _ => Gamma.new_ok.trans and_assoc.symm) (fun _ => rfl) fun _ => rfl
/-- C18: inverse_gamma -/
theorem C18_inverse_gamma_round_trip : RoundTrip (fun a : F64 × F64 => InvGamma.new a.1 a.2) InvGamma.params InvGamma.ofParams id (fun a => 0 < a.1 ∧ 0 < a.2) :=
  roundTrip_of (fun a => ⟨a.1, a.2⟩) (fun _ _ => InvGamma.new_ok.trans and_assoc.symm) (fun _ => rfl) fun _ => rfl
/-- C18: beta -/
theorem C18_beta_round_trip : RoundTrip (fun a : F64 × F64 => BetaDist.new a.1 a.2) BetaDist.params BetaDist.ofParams id (fun a => 0 < a.1 ∧ 0 < a.2) :=
  roundTrip_of (fun a => ⟨a.1, a.2⟩) (fun _ _ => BetaDist.new_ok.trans and_assoc.symm) (fun _ => rfl) fun _ => rfl
/-- C18: beta_prime -/
theorem C18_beta_prime_round_trip : RoundTrip (fun a : F64 × F64 => BetaPrime.new a.1 a.2) BetaPrime.params BetaPrime.ofParams id (fun a => 0 < a.1 ∧ 0 < a.2) :=
  roundTrip_of (fun a => ⟨a.1, a.2⟩) (fun _ _ => BetaPrime.new_ok.trans and_assoc.symm) (fun _ => rfl) fun _ => rfl
/-- C18: student_t -/
theorem C18_student_t_round_trip : RoundTrip (fun a : F64 => StudentT.new a) StudentT.params StudentT.ofParams id (fun a => True) :=
  roundTrip_of (fun a => ⟨a⟩) (fun _ _ => StudentT.new_ok.trans (iff_of_eq (true_and _).symm)) (fun _ => rfl) fun _ => rfl
/-- C18: levy -/
theorem C18_levy_round_trip : RoundTrip (fun a : F64 × F64 => Levy.new a.1 a.2) Levy.params Levy.ofParams id (fun a => 0 < a.2) :=
  roundTrip_of (fun a => ⟨a.1, a.2⟩) (fun _ _ => Levy.new_ok) (fun _ => rfl) fun _ => rfl
/-- C18: folded_normal -/
theorem C18_folded_normal_round_trip : RoundTrip (fun a : F64 × F64 => FoldedNormal.new a.1 a.2) FoldedNormal.params FoldedNormal.ofParams id (fun a => 0 < a.2) :=
  roundTrip_of (fun a => ⟨a.1, a.2⟩) (fun _ _ => FoldedNormal.new_ok) (fun _ => rfl) fun _ => rfl
/-- C18: chi_sq -/
theorem C18_chi_sq_round_trip : RoundTrip (fun a : ℕ => ChiSq.new a) ChiSq.params ChiSq.ofParams id (fun a => 0 < a) :=
  roundTrip_of (fun a => ⟨a⟩) (fun _ _ => ChiSq.new_ok) (fun _ => rfl) fun _ => rfl
/-- C18: chi -/
theorem C18_chi_round_trip : RoundTrip (fun a : ℕ => Chi.new a) Chi.params Chi.ofParams id (fun a => 0 < a) :=
  roundTrip_of (fun a => ⟨a⟩) (fun _ _ => Chi.new_ok) (fun _ => rfl) fun _ => rfl
/-- C18: erlang -/
theorem C18_erlang_round_trip : RoundTrip (fun a : ℕ × F64 => Erlang.new a.1 a.2) Erlang.params Erlang.ofParams id (fun a => 0 < a.1 ∧ 0 < a.2) :=
  roundTrip_of (fun a => ⟨a.1, a.2⟩) (fun _ _ => Erlang.new_ok.trans and_assoc.symm) (fun _ => rfl) fun _ => rfl
/-- C18: f_dist -/
theorem C18_f_dist_round_trip : RoundTrip (fun a : ℕ × ℕ => FDist.new a.1 a.2) FDist.params FDist.ofParams id (fun a => 0 < a.1 ∧ 0 < a.2) :=
  roundTrip_of (fun a => ⟨a.1, a.2⟩) (fun _ _ => FDist.new_ok.trans and_assoc.symm) (fun _ => rfl) fun _ => rfl
/-- C18: continuous uniform -/
theorem C18_uniform_round_trip : RoundTrip (fun a : F64 × F64 => UniformF.new a.1 a.2) UniformF.params (fun p => UniformF.fromParams p.1 p.2)
    id (fun a => 0 < a.2) :=
  roundTrip_of (fun a => ⟨a.1, a.2, 1 / a.2⟩) (fun _ _ => UniformF.new_ok) (fun _ => rfl) fun _ => rfl
/-- C18: normal (univariate) -/
theorem C18_normal_round_trip : RoundTrip (fun a : F64 × F64 => UvNormal.new a.1 a.2) UvNormal.params UvNormal.ofParams
    (fun a => ⟨a.1, a.2⟩) (fun a => 0 < a.2) :=
  roundTrip_of (fun a => ⟨a.1, a.2⟩) (fun _ _ => UvNormal.new_ok) (fun _ => rfl) fun _ => rfl
/-- C18: log-normal -/
theorem C18_lognormal_round_trip : RoundTrip (fun a : F64 × F64 => LogNormal.new a.1 a.2) LogNormal.params LogNormal.ofParams
    (fun a => ⟨a.1, a.2⟩) (fun a => 0 < a.2) :=
  roundTrip_of (fun a => ⟨⟨a.1, a.2⟩⟩) (fun _ _ => LogNormal.new_ok) (fun _ => rfl) fun _ => rfl
/-- C18: inverse Gaussian -/
theorem C18_inverse_normal_round_trip : RoundTrip (fun a : F64 × F64 => InvNormal.new a.1 a.2) InvNormal.params InvNormal.ofParams id
    (fun a => 0 < a.1 ∧ 0 < a.2) :=
  roundTrip_of (fun a => ⟨a.1, a.2, UvNormal.standard⟩) (fun _ _ => InvNormal.new_ok.trans and_assoc.symm) (fun _ => rfl) fun _ => rfl
/-- C18: beta-binomial -/
theorem C18_beta_binomial_round_trip : RoundTrip (fun a : ℕ × F64 × F64 => BetaBinomial.new a.1 a.2.1 a.2.2) BetaBinomial.params
    (fun p => BetaBinomial.fromParams p.1 p.2.1 p.2.2) id (fun a => 0 < a.2.1 ∧ 0 < a.2.2) :=
  roundTrip_of (fun a => BetaBinomial.fromParams a.1 a.2.1 a.2.2) (fun _ _ => BetaBinomial.new_ok.trans and_assoc.symm) (fun _ => rfl) fun _ => rfl
/-- C18: Bernoulli -/
theorem C18_bernoulli_round_trip : RoundTrip (fun a : F64 => Bernoulli.new a) Bernoulli.params Bernoulli.fromParams
    (fun a => ⟨a⟩) (fun a => 0 ≤ a ∧ a ≤ 1) :=
  roundTrip_of (fun a => ⟨⟨a⟩, ⟨1 - a⟩, a * (1 - a)⟩) (fun _ _ => Bernoulli.new_ok) (fun _ => rfl) fun _ => rfl
/-- C18: binomial -/
theorem C18_binomial_round_trip : RoundTrip (fun a : ℕ × Probability => Binomial.new a.1 a.2) Binomial.params Binomial.fromParams id
    (fun a => 0 ≤ a.2.val ∧ a.2.val ≤ 1) :=
  roundTrip_of (fun a => ⟨a.1, a.2, a.2.not⟩) (fun _ _ => Binomial.new_ok) (fun _ => rfl) fun _ => rfl
/-- C18: geometric -/
theorem C18_geometric_round_trip : RoundTrip (fun a : F64 => Geometric.new a) Geometric.params Geometric.fromParams
    (fun a => ⟨a⟩) (fun a => 0 ≤ a ∧ a ≤ 1) :=
  roundTrip_of (fun a => ⟨⟨a⟩, ⟨1 - a⟩⟩) (fun _ _ => Geometric.new_ok) (fun _ => rfl) fun _ => rfl
/-- C18: categorical -/
theorem C18_categorical_round_trip {ps : List F64} {d : Categorical} (h : Categorical.new ps = .ok d) :
    d.params.ps = ps ∧ (∀ p ∈ ps, InUnit p) ∧ Categorical.ofParams d.params = d :=
  ⟨(Categorical.ps_eq h).1, (Categorical.ps_eq h).2, rfl⟩
/-- C18: degenerate -/
theorem C18_degenerate_round_trip :
    (∀ k : F64, (DegenerateF.new k).params = k ∧ DegenerateF.ofParams (DegenerateF.new k).params = DegenerateF.new k) ∧
    ∀ k : ℤ, (DegenerateI.new k).params = k ∧ DegenerateI.ofParams (DegenerateI.new k).params = DegenerateI.new k :=
  ⟨fun _ => ⟨rfl, rfl⟩, fun _ => ⟨rfl, rfl⟩⟩
/-- C18: discrete uniform, when the interval and the cardinality fit an i64 -/
theorem C18_uniform_discrete_round_trip {pr : Profile} {lb : ℤ} {w : ℕ} (hf : UniformI.Fits lb w) :
    ((∃ d, UniformI.new pr lb w = .ok (.ok d)) ↔ 0 < w) ∧
    ∀ d, UniformI.new pr lb w = .ok (.ok d) → d.params = (lb, (w : ℤ)) ∧ UniformI.ofParams pr d.params = .ok d := by
  refine ⟨⟨?_, fun h => ⟨_, (UniformI.new_ok hf).2 ⟨h, rfl⟩⟩⟩, fun d hd => ?_⟩
  · rintro ⟨d, hd⟩; exact ((UniformI.new_ok hf).1 hd).1
  · obtain ⟨h0, rfl⟩ := (UniformI.new_ok hf).1 hd
    refine ⟨rfl, ?_⟩
    unfold UniformI.ofParams UniformI.params
    obtain ⟨h1, h2, h3⟩ := UniformI.Fits.bounds hf
    dsimp only
    rw [i64chk_ok ⟨by unfold I64MIN; omega, by omega⟩]; rfl
end

/-! ### non-vacuity: accepted and rejected arguments -/
section
attribute [local instance] exactFP exactFP_exact
example : ∃ d, Pareto.new (fin (-3)) (fin 2) = .ok d := ((C18_pareto_round_trip (fin (-3), fin 2)).1).2 (fin_lt_fin.2 (by norm_num))
example : ¬ ∃ d, Gamma.new (fin 1) (fin 0) = .ok d := fun h =>
  absurd (((C18_gamma_round_trip (fin 1, fin 0)).1).1 h).2 (fun h => absurd (fin_lt_fin.1 h) (lt_irrefl _))
example : ∃ d, Weibull.new (fin 1) (fin 2) = .ok d :=
  ((C18_weibull_round_trip (fin 1, fin 2)).1).2 ⟨fin_lt_fin.2 (by norm_num), fin_lt_fin.2 (by norm_num)⟩
end
end Rstat
