import Verif.Lemmas.Transfer
import Mathlib.Analysis.SpecialFunctions.Gamma.Beta
import Mathlib.Analysis.SpecialFunctions.Trigonometric.Deriv

/-! Derivatives of Gamma at 1 from Euler's reflection formula; integrals against `Law f`. -/
namespace Rstat.Spec
open MeasureTheory Filter Topology Set Real ProbabilityTheory

theorem gamma_analyticAt {a : ℝ} (ha : 0 < a) : AnalyticAt ℝ Real.Gamma a := by
  have hs : -1 < a - 1 := by linarith
  have h := analyticAt_mgf (exp_log_mem_interior hs)
  have h2 : AnalyticAt ℝ (fun s => Real.Gamma (1 + s)) (a - 1) := h.congr (by
    filter_upwards [Ioi_mem_nhds hs] with s hs
    exact exp_log_mgf hs)
  have h3 : AnalyticAt ℝ (fun x : ℝ => x - 1) a := by fun_prop
  have h4 := AnalyticAt.comp (g := fun s => Real.Gamma (1 + s)) (f := fun x : ℝ => x - 1) h2 h3
  refine h4.congr (Eventually.of_forall fun x => ?_)
  simp

/-- `Γ(1+s)Γ(1-s)`, the moment generating function of the standard logistic law -/
noncomputable def gammaRefl (s : ℝ) : ℝ := Real.Gamma (1 + s) * Real.Gamma (1 - s)

theorem gammaRefl_sin {s : ℝ} (h : |s| < 1) : gammaRefl s * sin (π * s) = π * s := by
  rcases eq_or_ne s 0 with rfl | h0
  · simp
  unfold gammaRefl
  obtain ⟨h1, h2⟩ := abs_lt.1 h
  have hs : sin (π * s) ≠ 0 := by
    rw [mul_comm]
    intro h3
    rw [Real.sin_eq_zero_iff] at h3
    obtain ⟨n, hn⟩ := h3
    have : (n : ℝ) = s := mul_right_cancel₀ pi_ne_zero hn
    rw [← this] at h1 h2 h0
    have a1 : -1 < n := by exact_mod_cast h1
    have a2 : n < 1 := by exact_mod_cast h2
    have : n = 0 := by omega
    simp [this] at h0
  have := Real.Gamma_mul_Gamma_one_sub s
  rw [add_comm, Real.Gamma_add_one h0, mul_assoc s, this, mul_assoc, div_mul_cancel₀ _ hs, mul_comm]

theorem gammaRefl_contDiffAt (n : ℕ) : ContDiffAt ℝ n gammaRefl 0 := by
  unfold gammaRefl
  have h1 : ContDiffAt ℝ n Real.Gamma 1 := (gamma_analyticAt one_pos).contDiffAt
  refine ContDiffAt.mul ?_ ?_
  · refine ContDiffAt.comp (g := Real.Gamma) (0:ℝ) (by simpa using h1) (by fun_prop)
  · refine ContDiffAt.comp (g := Real.Gamma) (0:ℝ) (by simpa using h1) (by fun_prop)

theorem sin_pi_derivs (n : ℕ) : iteratedDeriv n (fun s : ℝ => sin (π * s)) 0 = π ^ n * iteratedDeriv n sin 0 := by
  rw [iteratedDeriv_comp_const_mul (Real.contDiff_sin.of_le le_top)]; simp

theorem sin_derivs : iteratedDeriv 0 sin (0:ℝ) = 0 ∧ iteratedDeriv 1 sin (0:ℝ) = 1 ∧ iteratedDeriv 2 sin (0:ℝ) = 0 ∧
    iteratedDeriv 3 sin (0:ℝ) = -1 ∧ iteratedDeriv 4 sin (0:ℝ) = 0 ∧ iteratedDeriv 5 sin (0:ℝ) = 1 := by
  have e2 := congrFun (Real.iteratedDeriv_even_sin 1) 0
  have e3 := congrFun (Real.iteratedDeriv_odd_sin 1) 0
  have e4 := congrFun (Real.iteratedDeriv_even_sin 2) 0
  have e5 := congrFun (Real.iteratedDeriv_odd_sin 2) 0
  refine ⟨by simp, by simp, ?_, ?_, ?_, ?_⟩
  · simpa using e2
  · simpa using e3
  · simpa using e4
  · simpa using e5

theorem gammaRefl_leibniz (n : ℕ) : ∑ i ∈ Finset.range (n + 1), (n.choose i : ℝ) * iteratedDeriv i gammaRefl 0 *
    (π ^ (n - i) * iteratedDeriv (n - i) sin 0) = if n = 1 then π else 0 := by
  have he : (fun s => gammaRefl s * sin (π * s)) =ᶠ[𝓝 0] fun s => π * s := by
    filter_upwards [Ioo_mem_nhds (show (-1:ℝ) < 0 by norm_num) (show (0:ℝ) < 1 by norm_num)] with s hs
    exact gammaRefl_sin (abs_lt.2 hs)
  have h1 := he.iteratedDeriv_eq n
  have hs : ContDiffAt ℝ n (fun s : ℝ => sin (π * s)) 0 := by fun_prop
  rw [iteratedDeriv_fun_mul (gammaRefl_contDiffAt n) hs, iteratedDeriv_const_mul_field] at h1
  simp only [sin_pi_derivs] at h1
  rw [h1, iteratedDeriv_fun_id_zero]
  split_ifs <;> simp

theorem gammaRefl_derivs : gammaRefl 0 = 1 ∧ iteratedDeriv 2 gammaRefl 0 = π ^ 2 / 3 ∧
    iteratedDeriv 4 gammaRefl 0 = 7 * π ^ 4 / 15 := by
  obtain ⟨s0, s1, s2, s3, s4, s5⟩ := sin_derivs
  have hpi := pi_pos
  have l3 := gammaRefl_leibniz 3
  have l5 := gammaRefl_leibniz 5
  have h0 : gammaRefl 0 = 1 := by unfold gammaRefl; simp
  have c52 : Nat.choose 5 2 = 10 := rfl
  have c54 : Nat.choose 5 4 = 5 := rfl
  have c32 : Nat.choose 3 2 = 3 := rfl
  simp only [Finset.sum_range_succ, Finset.sum_range_zero, Nat.sub_zero, s0, s1, s2, s3, s4, s5, mul_zero, add_zero, zero_add,
    Nat.reduceSub, iteratedDeriv_zero, h0, c52, c54, c32, Nat.choose_zero_right, mul_one, Nat.reduceEqDiff, if_false, Nat.cast_one, one_mul, Nat.cast_ofNat, mul_neg, Nat.sub_self, pow_one, OfNat.ofNat_ne_one] at l3 l5
  have r2 : iteratedDeriv 2 gammaRefl 0 = π ^ 2 / 3 := by
    have : π * (3 * iteratedDeriv 2 gammaRefl 0 - π ^ 2) = 0 := by linarith
    rcases mul_eq_zero.1 this with h | h
    · exact absurd h hpi.ne'
    · linarith
  refine ⟨h0, r2, ?_⟩
  rw [r2] at l5
  have : π * (5 * iteratedDeriv 4 gammaRefl 0 - 7 / 3 * π ^ 4) = 0 := by ring_nf at l5 ⊢; linarith
  rcases mul_eq_zero.1 this with h | h
  · exact absurd h hpi.ne'
  · linarith

theorem gammaRefl_eq_gamma (n : ℕ) : iteratedDeriv n gammaRefl 0 = ∑ i ∈ Finset.range (n + 1), (n.choose i : ℝ) *
    iteratedDeriv i Real.Gamma 1 * ((-1) ^ (n - i) * iteratedDeriv (n - i) Real.Gamma 1) := by
  have h1 : ContDiffAt ℝ n Real.Gamma 1 := (gamma_analyticAt one_pos).contDiffAt
  have c1 : ContDiffAt ℝ n (fun s => Real.Gamma (1 + s)) 0 :=
    ContDiffAt.comp (g := Real.Gamma) (0:ℝ) (by simpa using h1) (by fun_prop)
  have c2 : ContDiffAt ℝ n (fun s => Real.Gamma (1 - s)) 0 :=
    ContDiffAt.comp (g := Real.Gamma) (0:ℝ) (by simpa using h1) (by fun_prop)
  show iteratedDeriv n (fun s => Real.Gamma (1 + s) * Real.Gamma (1 - s)) 0 = _
  rw [iteratedDeriv_fun_mul c1 c2]
  refine Finset.sum_congr rfl fun i _ => ?_
  rw [iteratedDeriv_comp_const_add, iteratedDeriv_comp_const_sub]
  simp

/-- second and fourth central moments of `ln T`, `T` unit exponential -/
theorem gamma_derivs_one :
    iteratedDeriv 2 Real.Gamma 1 - digamma 1 ^ 2 = π ^ 2 / 6 ∧
    iteratedDeriv 4 Real.Gamma 1 - 4 * digamma 1 * iteratedDeriv 3 Real.Gamma 1 +
      6 * digamma 1 ^ 2 * iteratedDeriv 2 Real.Gamma 1 - 3 * digamma 1 ^ 4 = 3 * π ^ 4 / 20 := by
  have g1 : iteratedDeriv 1 Real.Gamma 1 = digamma 1 := by
    rw [iteratedDeriv_one, (gamma_hasDerivAt one_pos).deriv, Real.Gamma_one, one_mul]
  have r2 := gammaRefl_eq_gamma 2
  have r4 := gammaRefl_eq_gamma 4
  have c42 : Nat.choose 4 2 = 6 := rfl
  have c43 : Nat.choose 4 3 = 4 := rfl
  rw [gammaRefl_derivs.2.1] at r2
  rw [gammaRefl_derivs.2.2] at r4
  simp only [Finset.sum_range_succ, Finset.sum_range_zero, Nat.sub_zero, Nat.reduceSub, iteratedDeriv_zero, g1,
    Real.Gamma_one, c42, c43, Nat.choose_zero_right, Nat.choose_one_right, Nat.choose_self, Nat.sub_self] at r2 r4
  norm_num at r2 r4
  constructor
  · linarith
  · have : iteratedDeriv 2 Real.Gamma 1 = π ^ 2 / 6 + digamma 1 ^ 2 := by linarith
    rw [this] at r4 ⊢
    linarith

/-- integrals against the law of a density -/
theorem IsDensityOf.integral_law {f F : ℝ → ℝ} (hf : IsDensityOf f F) (h : ℝ → ℝ) :
    (Integrable h (Law f) ↔ Integrable fun x => h x * f x) ∧ ∫ x, h x ∂(Law f) = ∫ x, h x * f x := by
  have hm : AEMeasurable (fun x => ENNReal.ofReal (f x)) volume := hf.integrable.aemeasurable.ennreal_ofReal
  have hlt : ∀ᵐ x ∂(volume : Measure ℝ), ENNReal.ofReal (f x) < ⊤ := Eventually.of_forall fun x => ENNReal.ofReal_lt_top
  have e : (fun x => (ENNReal.ofReal (f x)).toReal • h x) = fun x => h x * f x := by
    ext x; rw [ENNReal.toReal_ofReal (hf.nonneg x), smul_eq_mul, mul_comm]
  unfold Law
  rw [integrable_withDensity_iff_integrable_smul₀' hm hlt, integral_withDensity_eq_integral_toReal_smul₀ hm hlt, e]
  exact ⟨Iff.rfl, rfl⟩

/-- moments from a moment generating function known near 0 -/
theorem moments_of_mgf {f F M : ℝ → ℝ} (hf : IsDensityOf f F) {r : ℝ} (hr : 0 < r)
    (hM : ∀ s, |s| < r → Integrable (fun x => rexp (s * x) * f x) ∧ ∫ x, rexp (s * x) * f x = M s) (k : ℕ) :
    HasCentral f 0 k (iteratedDeriv k M 0) := by
  have := hf.isProbability
  have hset : ∀ s, |s| < r → s ∈ integrableExpSet (fun x : ℝ => x) (Law f) := fun s hs => by
    show Integrable _ _
    rw [(hf.integral_law _).1]; exact (hM s hs).1
  have hint : (0:ℝ) ∈ interior (integrableExpSet (fun x : ℝ => x) (Law f)) :=
    mem_interior.2 ⟨Ioo (-r) r, fun s hs => hset s (abs_lt.2 hs), isOpen_Ioo, by simp [hr]⟩
  have h1 := integrable_pow_of_mem_interior_integrableExpSet hint k
  rw [(hf.integral_law _).1] at h1
  have h2 := iteratedDeriv_mgf_zero hint k
  have h3 : ∫ x, ((fun x : ℝ => x) ^ k) x ∂(Law f) = ∫ x, x ^ k * f x := (hf.integral_law _).2
  have h4 : mgf (fun x : ℝ => x) (Law f) =ᶠ[𝓝 0] M := by
    filter_upwards [Ioo_mem_nhds (show -r < 0 by linarith) hr] with s hs
    unfold mgf
    rw [(hf.integral_law _).2]; exact (hM s (abs_lt.2 hs)).2
  rw [h4.iteratedDeriv_eq] at h2
  unfold HasCentral
  simp only [sub_zero]
  exact ⟨h1, by rw [h2]; exact h3.symm⟩

end Rstat.Spec
