import Verif.Props.RoundTrip
import Verif.Props.Mixture
import Verif.Props.Params
import Verif.Lemmas.FloatMono
import Verif.Model.Dist.Unchecked

/-! C218: `new_unchecked` builds the distribution `new` builds, whenever `new` accepts. C219: the `Default` (and `standard()`) values are
the distributions the checked constructors build from the standard parameters. Everything here holds for every floating-point
implementation that meets the hypotheses shown. -/
set_option linter.unusedSectionVars false
namespace Rstat
open F64 Spec

/-- the checking constructor only checks: whatever it returns is what the unchecked constructor builds from the same arguments, and what
it refuses it refuses with an error -/
def Spec.OnlyChecks {A D E : Type} (new : A → Except E D) (unchecked : A → D) (valid : A → Prop) : Prop :=
  ∀ a, (valid a → new a = .ok (unchecked a)) ∧ (¬ valid a → ∃ e, new a = .error e)

theorem onlyChecks_of {A D E : Type} {new : A → Except E D} {un : A → D} {valid : A → Prop}
    (h : ∀ a d, new a = .ok d ↔ valid a ∧ d = un a) : OnlyChecks new un valid := fun a => by
  refine ⟨fun hv => (h a _).2 ⟨hv, rfl⟩, fun hv => ?_⟩
  cases e : new a with
  | error x => exact ⟨x, rfl⟩
  | ok d => exact absurd ((h a d).1 e).1 hv

section
variable [FP]
/-- C218: arcsine -/
theorem C218_arcsine_unchecked : OnlyChecks (fun a : F64 × F64 => Arcsine.new a.1 a.2) (fun a => Arcsine.newUnchecked a.1 a.2) (fun a => 0 < a.2) :=
  onlyChecks_of fun _ _ => Arcsine.new_ok
/-- C218: cauchy -/
theorem C218_cauchy_unchecked : OnlyChecks (fun a : F64 × F64 => Cauchy.new a.1 a.2) (fun a => Cauchy.newUnchecked a.1 a.2) (fun a => 0 < a.2) :=
  onlyChecks_of fun _ _ => Cauchy.new_ok
/-- C218: cosine -/
theorem C218_cosine_unchecked : OnlyChecks (fun a : F64 × F64 => Cosine.new a.1 a.2) (fun a => Cosine.newUnchecked a.1 a.2) (fun a => 0 < a.2) :=
  onlyChecks_of fun _ _ => Cosine.new_ok
/-- C218: gumbel -/
theorem C218_gumbel_unchecked : OnlyChecks (fun a : F64 × F64 => Gumbel.new a.1 a.2) (fun a => Gumbel.newUnchecked a.1 a.2) (fun a => 0 < a.2) :=
  onlyChecks_of fun _ _ => Gumbel.new_ok
/-- C218: laplace -/
theorem C218_laplace_unchecked : OnlyChecks (fun a : F64 × F64 => Laplace.new a.1 a.2) (fun a => Laplace.newUnchecked a.1 a.2) (fun a => 0 < a.2) :=
  onlyChecks_of fun _ _ => Laplace.new_ok
/-- C218: logistic -/
theorem C218_logistic_unchecked : OnlyChecks (fun a : F64 × F64 => Logistic.new a.1 a.2) (fun a => Logistic.newUnchecked a.1 a.2) (fun a => 0 < a.2) :=
  onlyChecks_of fun _ _ => Logistic.new_ok
/-- C218: pareto -/
theorem C218_pareto_unchecked : OnlyChecks (fun a : F64 × F64 => Pareto.new a.1 a.2) (fun a => Pareto.newUnchecked a.1 a.2) (fun a => 0 < a.2) :=
  onlyChecks_of fun _ _ => Pareto.new_ok
/-- C218: levy -/
theorem C218_levy_unchecked : OnlyChecks (fun a : F64 × F64 => Levy.new a.1 a.2) (fun a => Levy.newUnchecked a.1 a.2) (fun a => 0 < a.2) :=
  onlyChecks_of fun _ _ => Levy.new_ok
/-- C218: folded normal -/
theorem C218_folded_normal_unchecked : OnlyChecks (fun a : F64 × F64 => FoldedNormal.new a.1 a.2) (fun a => FoldedNormal.newUnchecked a.1 a.2) (fun a => 0 < a.2) :=
  onlyChecks_of fun _ _ => FoldedNormal.new_ok
/-- C218: uniform -/
theorem C218_uniform_unchecked : OnlyChecks (fun a : F64 × F64 => UniformF.new a.1 a.2) (fun a => UniformF.newUnchecked a.1 a.2) (fun a => 0 < a.2) :=
  onlyChecks_of fun _ _ => UniformF.new_ok
/-- C218: normal -/
theorem C218_normal_unchecked : OnlyChecks (fun a : F64 × F64 => UvNormal.new a.1 a.2) (fun a => UvNormal.newUnchecked a.1 a.2) (fun a => 0 < a.2) :=
  onlyChecks_of fun _ _ => UvNormal.new_ok
/-- C218: lognormal -/
theorem C218_lognormal_unchecked : OnlyChecks (fun a : F64 × F64 => LogNormal.new a.1 a.2) (fun a => LogNormal.newUnchecked a.1 a.2) (fun a => 0 < a.2) :=
  onlyChecks_of fun _ _ => LogNormal.new_ok
/-- C218: inverse normal -/
theorem C218_inverse_normal_unchecked : OnlyChecks (fun a : F64 × F64 => InvNormal.new a.1 a.2) (fun a => InvNormal.newUnchecked a.1 a.2) (fun a => 0 < a.1 ∧ 0 < a.2) :=
  onlyChecks_of fun _ _ => InvNormal.new_ok.trans and_assoc.symm
/-- C218: beta -/
theorem C218_beta_unchecked : OnlyChecks (fun a : F64 × F64 => BetaDist.new a.1 a.2) (fun a => BetaDist.newUnchecked a.1 a.2) (fun a => 0 < a.1 ∧ 0 < a.2) :=
  onlyChecks_of fun _ _ => BetaDist.new_ok.trans and_assoc.symm
/-- C218: beta prime -/
theorem C218_beta_prime_unchecked : OnlyChecks (fun a : F64 × F64 => BetaPrime.new a.1 a.2) (fun a => BetaPrime.newUnchecked a.1 a.2) (fun a => 0 < a.1 ∧ 0 < a.2) :=
  onlyChecks_of fun _ _ => BetaPrime.new_ok.trans and_assoc.symm
/-- C218: gamma -/
theorem C218_gamma_unchecked : OnlyChecks (fun a : F64 × F64 => Gamma.new a.1 a.2) (fun a => Gamma.newUnchecked a.1 a.2) (fun a => 0 < a.1 ∧ 0 < a.2) :=
  onlyChecks_of fun _ _ => Gamma.new_ok.trans and_assoc.symm
/-- C218: inverse gamma -/
theorem C218_inverse_gamma_unchecked : OnlyChecks (fun a : F64 × F64 => InvGamma.new a.1 a.2) (fun a => InvGamma.newUnchecked a.1 a.2) (fun a => 0 < a.1 ∧ 0 < a.2) :=
  onlyChecks_of fun _ _ => InvGamma.new_ok.trans and_assoc.symm
/-- C218: erlang -/
theorem C218_erlang_unchecked : OnlyChecks (fun a : ℕ × F64 => Erlang.new a.1 a.2) (fun a => Erlang.newUnchecked a.1 a.2) (fun a => 0 < a.1 ∧ 0 < a.2) :=
  onlyChecks_of fun _ _ => Erlang.new_ok.trans and_assoc.symm
/-- C218: f dist -/
theorem C218_f_dist_unchecked : OnlyChecks (fun a : ℕ × ℕ => FDist.new a.1 a.2) (fun a => FDist.newUnchecked a.1 a.2) (fun a => 0 < a.1 ∧ 0 < a.2) :=
  onlyChecks_of fun _ _ => FDist.new_ok.trans and_assoc.symm
/-- C218: gev -/
theorem C218_gev_unchecked : OnlyChecks (fun a : F64 × F64 × F64 => GeneralisedExtremeValue.new a.1 a.2.1 a.2.2) (fun a => GeneralisedExtremeValue.newUnchecked a.1 a.2.1 a.2.2) (fun a => 0 < a.2.1 ∧ 0 < a.2.2) :=
  onlyChecks_of fun _ _ => GeneralisedExtremeValue.new_ok.trans and_assoc.symm
/-- C218: gpd -/
theorem C218_gpd_unchecked : OnlyChecks (fun a : F64 × F64 × F64 => GeneralisedPareto.new a.1 a.2.1 a.2.2) (fun a => GeneralisedPareto.newUnchecked a.1 a.2.1 a.2.2) (fun a => 0 < a.2.1 ∧ 0 < a.2.2) :=
  onlyChecks_of fun _ _ => GeneralisedPareto.new_ok.trans and_assoc.symm
/-- C218: triangular -/
theorem C218_triangular_unchecked : OnlyChecks (fun a : F64 × F64 × F64 => Triangular.new a.1 a.2.1 a.2.2) (fun a => Triangular.newUnchecked a.1 a.2.1 a.2.2) (fun a => 0 < a.2.1 ∧ 0 < a.2.2) :=
  onlyChecks_of fun _ _ => Triangular.new_ok.trans and_assoc.symm
/-- C218: beta binomial -/
theorem C218_beta_binomial_unchecked : OnlyChecks (fun a : ℕ × F64 × F64 => BetaBinomial.new a.1 a.2.1 a.2.2) (fun a => BetaBinomial.newUnchecked a.1 a.2.1 a.2.2) (fun a => 0 < a.2.1 ∧ 0 < a.2.2) :=
  onlyChecks_of fun _ _ => BetaBinomial.new_ok.trans and_assoc.symm
/-- C218: chi -/
theorem C218_chi_unchecked : OnlyChecks (fun a : ℕ => Chi.new a) (fun a => Chi.newUnchecked a) (fun a => 0 < a) :=
  onlyChecks_of fun _ _ => Chi.new_ok
/-- C218: chi sq -/
theorem C218_chi_sq_unchecked : OnlyChecks (fun a : ℕ => ChiSq.new a) (fun a => ChiSq.newUnchecked a) (fun a => 0 < a) :=
  onlyChecks_of fun _ _ => ChiSq.new_ok
/-- C218: exponential -/
theorem C218_exponential_unchecked : OnlyChecks (fun a : F64 => Exponential.new a) (fun a => Exponential.newUnchecked a) (fun a => 0 < a) :=
  onlyChecks_of fun _ _ => Exponential.new_ok
/-- C218: frechet -/
theorem C218_frechet_unchecked : OnlyChecks (fun a : F64 => Frechet.new a) (fun a => Frechet.newUnchecked a) (fun a => 0 < a) :=
  onlyChecks_of fun _ _ => Frechet.new_ok
/-- C218: poisson -/
theorem C218_poisson_unchecked : OnlyChecks (fun a : F64 => Poisson.new a) (fun a => Poisson.newUnchecked a) (fun a => 0 < a) :=
  onlyChecks_of fun _ _ => Poisson.new_ok
/-- C218: rayleigh -/
theorem C218_rayleigh_unchecked : OnlyChecks (fun a : F64 => Rayleigh.new a) (fun a => Rayleigh.newUnchecked a) (fun a => 0 < a) :=
  onlyChecks_of fun _ _ => Rayleigh.new_ok
/-- C218: student t -/
theorem C218_student_t_unchecked : OnlyChecks (fun a : F64 => StudentT.new a) (fun a => StudentT.newUnchecked a) (fun a => True) :=
  onlyChecks_of fun _ _ => StudentT.new_ok.trans (iff_of_eq (true_and _).symm)
/-- C218: bernoulli -/
theorem C218_bernoulli_unchecked : OnlyChecks (fun a : F64 => Bernoulli.new a) (fun a => Bernoulli.newUnchecked a) (fun a => 0 ≤ a ∧ a ≤ 1) :=
  onlyChecks_of fun _ _ => Bernoulli.new_ok
/-- C218: geometric -/
theorem C218_geometric_unchecked : OnlyChecks (fun a : F64 => Geometric.new a) (fun a => Geometric.newUnchecked a) (fun a => 0 ≤ a ∧ a ≤ 1) :=
  onlyChecks_of fun _ _ => Geometric.new_ok
/-- C218: binomial -/
theorem C218_binomial_unchecked : OnlyChecks (fun a : ℕ × Probability => Binomial.new a.1 a.2) (fun a => Binomial.newUnchecked a.1 a.2)
    (fun a => 0 ≤ a.2.val ∧ a.2.val ≤ 1) := onlyChecks_of fun _ _ => Binomial.new_ok
/-- C218: bivariate normal, with the independent and isotropic special cases -/
theorem C218_bivariate_normal_unchecked :
    OnlyChecks (fun a : (Fin 2 → F64) × (Fin 2 → F64) × F64 => BvNormal.new a.1 a.2.1 a.2.2) (fun a => BvNormal.newUnchecked a.1 a.2.1 a.2.2)
      (fun a => (∀ i, 0 < a.2.1 i) ∧ F64.fin (-1) ≤ a.2.2 ∧ a.2.2 ≤ F64.fin 1) ∧
    OnlyChecks (fun a : (Fin 2 → F64) × (Fin 2 → F64) => BvNormal.independent a.1 a.2) (fun a => BvNormal.independentUnchecked a.1 a.2)
      (fun a => ∀ i, 0 < a.2 i) ∧
    OnlyChecks (fun a : (Fin 2 → F64) × F64 => BvNormal.isotropic a.1 a.2) (fun a => BvNormal.isotropicUnchecked a.1 a.2) (fun a => 0 < a.2) ∧
    (∀ mu S, BvNormal.independentUnchecked mu S = BvNormal.newUnchecked mu S 0) ∧
    ∀ mu s, BvNormal.isotropicUnchecked mu s = BvNormal.newUnchecked mu (fun _ => s) 0 := by
  have h0 : F64.fin (-1) ≤ (0 : F64) ∧ (0 : F64) ≤ F64.fin 1 :=
    ⟨(Is.le_iff (Is.fin (-1)) Is.zero).2 (by norm_num), (Is.le_iff Is.zero (Is.fin 1)).2 (by norm_num)⟩
  have hv : ∀ s : F64, (![s, s] : Fin 2 → F64) = fun _ => s := fun s => by funext i; fin_cases i <;> rfl
  refine ⟨onlyChecks_of fun a d => ?_, onlyChecks_of fun a d => ?_, onlyChecks_of fun a d => ?_, fun _ _ => rfl, fun mu s => ?_⟩
  · exact BvNormal.new_ok.trans (by simp only [and_assoc]; rfl)
  · exact BvNormal.new_ok.trans ⟨fun h => ⟨h.1, h.2.2.2⟩, fun h => ⟨h.1, h0.1, h0.2, h.2⟩⟩
  · refine BvNormal.new_ok.trans ⟨fun h => ⟨h.1 0, h.2.2.2⟩, fun h => ⟨fun i => ?_, h0.1, h0.2, h.2⟩⟩
    rw [hv]; exact h.1
  · unfold BvNormal.isotropicUnchecked BvNormal.independentUnchecked; rw [hv]
/-- C218: paired normal, with the isotropic special case -/
theorem C218_paired_normal_unchecked :
    OnlyChecks (fun a : (Fin 2 → F64) × (Fin 2 → F64) => PairedNormal.new a.1 a.2) (fun a => PairedNormal.newUnchecked a.1 a.2)
      (fun a => ∀ i, 0 < a.2 i) ∧
    OnlyChecks (fun a : (Fin 2 → F64) × F64 => PairedNormal.isotropic a.1 a.2) (fun a => PairedNormal.isotropicUnchecked a.1 a.2) (fun a => 0 < a.2) ∧
    ∀ mu s, PairedNormal.isotropicUnchecked mu s = PairedNormal.newUnchecked mu (fun _ => s) := by
  have hv : ∀ s : F64, (![s, s] : Fin 2 → F64) = fun _ => s := fun s => by funext i; fin_cases i <;> rfl
  refine ⟨onlyChecks_of fun a d => PairedNormal.new_ok, onlyChecks_of fun a d => ?_, fun mu s => ?_⟩
  · refine PairedNormal.new_ok.trans ⟨fun h => ⟨h.1 0, h.2⟩, fun h => ⟨fun i => ?_, h.2⟩⟩
    rw [hv]; exact h.1
  · unfold PairedNormal.isotropicUnchecked; rw [hv]
/-- C218: multivariate normal, general, diagonal, isotropic and homogeneous covariance -/
theorem C218_multivariate_normal_unchecked [Lapack] {n : ℕ} :
    OnlyChecks (fun a : (Fin n → F64) × (Fin n → Fin n → F64) => MvNormal.new a.1 a.2) (fun a => MvNormal.newUnchecked a.1 a.2)
      (fun a => ∀ i j, 0 ≤ a.2 i j) ∧
    OnlyChecks (fun a : (Fin n → F64) × (Fin n → F64) => DiagNormal.new a.1 a.2) (fun a => DiagNormal.newUnchecked a.1 a.2)
      (fun a => ∀ i, 0 < a.2 i) ∧
    OnlyChecks (fun a : (Fin n → F64) × F64 => IsoNormal.new a.1 a.2) (fun a => IsoNormal.newUnchecked a.1 a.2) (fun a => 0 < a.2) ∧
    OnlyChecks (fun a : F64 × F64 => IsoNormal.homogeneous n a.1 a.2) (fun a => IsoNormal.homogeneousUnchecked n a.1 a.2)
      (fun a => 0 < n ∧ 0 < a.2) ∧
    ∀ mu s, IsoNormal.homogeneousUnchecked n mu s = IsoNormal.newUnchecked (fun _ => mu) s :=
  ⟨onlyChecks_of fun _ _ => MvNormal.new_ok, onlyChecks_of fun _ _ => DiagNormal.new_ok, onlyChecks_of fun _ _ => IsoNormal.new_ok,
    onlyChecks_of fun _ _ => IsoNormal.homogeneous_ok.trans and_assoc.symm, fun _ _ => rfl⟩
/-- C218: simplex vectors and the categorical distribution -/
theorem C218_categorical_unchecked {ps : List F64} :
    (∀ v, SimplexVector.new ps = .ok v → v = SimplexVector.newUnchecked ps) ∧
    ∀ d, Categorical.new ps = .ok d → d = Categorical.newUnchecked ps := by
  have h1 : ∀ v, SimplexVector.new ps = .ok v → v = SimplexVector.newUnchecked ps := fun v h => by
    have := ((C05_simplex_new_iff ps v).1 h).1
    cases v; exact congrArg SimplexVector.mk this
  exact ⟨h1, fun d h => by have := h1 _ (Categorical.new_ok.1 h); cases d; exact congrArg Categorical.mk this⟩
/-- C218 (Dirichlet, partial): what `new` returns is what `new_unchecked` builds. Missing: `new` accepts nothing (next theorem). -/
theorem C218_dirichlet_unchecked_partial {n : ℕ} (a : Fin n → F64) (d : Dirichlet n) (h : Dirichlet.new a = .ok d) :
    d = Dirichlet.newUnchecked a := by
  unfold Dirichlet.new at h
  obtain ⟨v, h1, h2⟩ := (exc_bind_ok _ _ _).1 h
  obtain ⟨-, rfl⟩ := C16_concentrations_sound_partial n a v h1
  cases h2; rfl
/-- C218 (Dirichlet, violated): `new` refuses every non-empty vector of concentrations, valid or not, while `new_unchecked` builds the
distribution: a Dirichlet distribution can only be built unchecked -/
theorem C218_dirichlet_violated {n : ℕ} (hn : 0 < n) (a : Fin n → F64) : ∃ e, Dirichlet.new a = .error e := by
  obtain ⟨n, rfl⟩ : ∃ m, n = m + 1 := ⟨n - 1, by omega⟩
  unfold Dirichlet.new
  cases h : Concentrations.new a with
  | error e => exact ⟨e, rfl⟩
  | ok v => exact absurd h (C16_nonempty_always_rejected_violated n a v)
/-- C218: multinomial -/
theorem C218_multinomial_unchecked {N n : ℕ} {ps : Fin N → F64} {d : Multinomial N} (h : Multinomial.new n ps = .ok d) :
    d = Multinomial.newUnchecked n ps := (Multinomial.new_ok.1 h).2
/-- C218: mixture -/
theorem C218_mixture_unchecked {C S P X σ : Type} [Support S] (D : Comp C S P X σ) (ws : List F64) (cs : List C) (m : Mixture C S)
    (h : Mixture.new D ws cs = .ok (.ok m)) : Mixture.newUnchecked D ws cs = .ok m := by
  obtain ⟨-, h1, h2, h3⟩ := Mixture.new_ok D ws cs m h
  unfold Mixture.newUnchecked
  rw [h1]
  have := C218_categorical_unchecked.1 _ h2
  cases m; cases h3; cases this; rfl
/-- C218: discrete uniform, in both build profiles: same value, same panic -/
theorem C218_uniform_discrete_unchecked (pr : Profile) (lb : ℤ) (w : ℕ) :
    (∀ d, UniformI.new pr lb w = .ok (.ok d) → UniformI.newUnchecked pr lb w = .ok d) ∧
    ∀ e, UniformI.new pr lb w = .error e → UniformI.newUnchecked pr lb w = .error e := by
  unfold UniformI.new UniformI.newUnchecked UniformI.ofParams
  generalize i64wrap w = iw
  cases h : Scale.newI iw with
  | error e => exact ⟨fun d h => by simp at h, fun e h => by simp at h⟩
  | ok v =>
    obtain ⟨-, rfl⟩ := (Scale.newI_ok _ _).1 h
    dsimp only
    generalize i64chk pr (v + 1) = r
    cases r with
    | error e => exact ⟨fun d h => by simp [bind, Except.bind] at h, fun e' h => by simpa [bind, Except.bind] using h⟩
    | ok x => exact ⟨fun d h => by simpa [bind, Except.bind] using h, fun e' h => by simp [bind, Except.bind] at h⟩
end

section
variable [FP] [FP.Lawful]
/-- C219: every `Default` value, and `standard()`, is what the checked constructor returns for the standard parameters -/
theorem C219_defaults :
    Arcsine.new 0 1 = .ok Arcsine.default ∧ BetaDist.new 1 1 = .ok BetaDist.default ∧ BetaPrime.new 1 1 = .ok BetaPrime.default ∧
    Cauchy.new 0 1 = .ok Cauchy.default ∧ Erlang.new 1 1 = .ok Erlang.default ∧ Exponential.new 1 = .ok Exponential.default ∧
    FoldedNormal.new 0 1 = .ok FoldedNormal.default ∧ Frechet.new 1 = .ok Frechet.default ∧ Gamma.new 1 1 = .ok Gamma.default ∧
    Gumbel.new 0 1 = .ok Gumbel.default ∧ InvGamma.new 1 1 = .ok InvGamma.default ∧ Kumaraswamy.new 1 1 = .ok Kumaraswamy.default ∧
    UniformF.new 0 1 = .ok UniformF.default ∧ DegenerateF.new 0 = DegenerateF.default ∧ DegenerateI.new 0 = DegenerateI.default ∧
    UvNormal.new 0 1 = .ok UvNormal.standard ∧
    BvNormal.new (fun _ => 0) (fun _ => 1) 0 = .ok BvNormal.default ∧ PairedNormal.new (fun _ => 0) (fun _ => 1) = .ok PairedNormal.default := by
  have h : (0 : F64) < 1 := lt_of_pos one_pos Is.one
  have h0 : F64.fin (-1) ≤ (0 : F64) ∧ (0 : F64) ≤ F64.fin 1 :=
    ⟨(Is.le_iff (Is.fin (-1)) Is.zero).2 (by norm_num), (Is.le_iff Is.zero (Is.fin 1)).2 (by norm_num)⟩
  have hv : ∀ s : F64, (![s, s] : Fin 2 → F64) = fun _ => s := fun s => by funext i; fin_cases i <;> rfl
  refine ⟨Arcsine.new_ok.2 ⟨h, rfl⟩, BetaDist.new_ok.2 ⟨h, h, rfl⟩, BetaPrime.new_ok.2 ⟨h, h, rfl⟩, Cauchy.new_ok.2 ⟨h, rfl⟩,
    Erlang.new_ok.2 ⟨one_pos, h, rfl⟩, Exponential.new_ok.2 ⟨h, rfl⟩, FoldedNormal.new_ok.2 ⟨h, rfl⟩, Frechet.new_ok.2 ⟨h, rfl⟩,
    Gamma.new_ok.2 ⟨h, h, rfl⟩, Gumbel.new_ok.2 ⟨h, rfl⟩, InvGamma.new_ok.2 ⟨h, h, rfl⟩, Kumaraswamy.new_ok.2 ⟨h, h, rfl⟩,
    UniformF.new_ok.2 ⟨h, ?_⟩, rfl, rfl, UvNormal.new_ok.2 ⟨h, rfl⟩, BvNormal.new_ok.2 ⟨fun _ => h, h0.1, h0.2, ?_⟩,
    PairedNormal.new_ok.2 ⟨fun _ => h, ?_⟩⟩
  · have : (1 : F64) / 1 = 1 := by
      have := div_finite Is.one Is.one one_ne_zero; rw [if_neg one_ne_zero, div_one, round_one] at this; exact this
    unfold UniformF.default; rw [this]
  · unfold BvNormal.default BvNormal.standard BvNormal.isotropicUnchecked BvNormal.independentUnchecked BvNormal.newUnchecked
    rw [hv, hv]
  · unfold PairedNormal.default PairedNormal.standard PairedNormal.newUnchecked
    rw [hv, hv]
end

/-! ### non-vacuity -/
section
attribute [local instance] exactFP exactFP_exact
/-- accepted and refused arguments -/
example : Triangular.new (fin 1) (fin 2) (fin 3) = .ok (Triangular.newUnchecked (fin 1) (fin 2) (fin 3)) :=
  (C218_triangular_unchecked (fin 1, fin 2, fin 3)).1 ⟨fin_lt_fin.2 (by norm_num), fin_lt_fin.2 (by norm_num)⟩
example : ∃ e, Triangular.new (fin 1) (fin 2) (fin 0) = .error e :=
  (C218_triangular_unchecked (fin 1, fin 2, fin 0)).2 fun h => absurd (fin_lt_fin.1 h.2) (lt_irrefl _)
example : ∃ e, Dirichlet.new (fun _ : Fin 3 => fin 1) = .error e := C218_dirichlet_violated (by norm_num) _
/-- the standard uniform law on the integers 2, …, 5 -/
example : ∃ d, UniformI.new .debug 2 3 = .ok (.ok d) := ⟨_, (UniformI.new_ok ⟨by norm_num [I64MIN], by norm_num [I64MAX], by norm_num [I64MAX]⟩).2 ⟨by norm_num, rfl⟩⟩
end
end Rstat
