import Verif.Lemmas.Dist.Cauchy
import Mathlib.Analysis.Fourier.Inversion
import Mathlib.Analysis.SpecialFunctions.ImproperIntegrals
import Mathlib.MeasureTheory.Measure.CharacteristicFunction.Basic
import Mathlib.MeasureTheory.Group.Convolution

/-! The characteristic function of the Cauchy law, and the law of a sum of independent Cauchy variables. -/
namespace Rstat.Spec
open MeasureTheory Filter Topology Set Real ProbabilityTheory FourierTransform

theorem laplace_integrable {c : ℝ} (hc : 0 < c) (b : ℝ) :
    IntegrableOn (fun t : ℝ => Complex.exp ((-c + b * Complex.I) * t)) (Ioi 0) ∧
    IntegrableOn (fun t : ℝ => Complex.exp ((c + b * Complex.I) * t)) (Iic 0) :=
  ⟨integrableOn_exp_mul_complex_Ioi (by simpa using hc) 0, integrableOn_exp_mul_complex_Iic (by simpa using hc) 0⟩

theorem laplace_kernel_integrable {c : ℝ} (hc : 0 < c) (b : ℝ) :
    Integrable (fun t : ℝ => Complex.exp ((b * t) * Complex.I) * (Real.exp (-(c * |t|)) : ℂ)) ∧
    ∫ t : ℝ, Complex.exp ((b * t) * Complex.I) * (Real.exp (-(c * |t|)) : ℂ) =
      1 / (c - b * Complex.I) + 1 / (c + b * Complex.I) := by
  obtain ⟨h1, h2⟩ := laplace_integrable hc b
  have e1 : ∀ t ∈ Ioi (0 : ℝ), Complex.exp ((-c + b * Complex.I) * t) =
      Complex.exp ((b * t) * Complex.I) * (Real.exp (-(c * |t|)) : ℂ) := by
    intro t ht
    rw [abs_of_pos ht, Complex.ofReal_exp, ← Complex.exp_add]; congr 1; push_cast; ring
  have e2 : ∀ t ∈ Iic (0 : ℝ), Complex.exp ((c + b * Complex.I) * t) =
      Complex.exp ((b * t) * Complex.I) * (Real.exp (-(c * |t|)) : ℂ) := by
    intro t ht
    rw [abs_of_nonpos ht, Complex.ofReal_exp, ← Complex.exp_add]; congr 1; push_cast; ring
  have i1 := h1.congr_fun e1 measurableSet_Ioi
  have i2 := h2.congr_fun e2 measurableSet_Iic
  refine ⟨by have := i2.union i1; rwa [Iic_union_Ioi, integrableOn_univ] at this, ?_⟩
  rw [← integral_add_compl (s := Ioi (0 : ℝ)) measurableSet_Ioi
    (by have := i2.union i1; rwa [Iic_union_Ioi, integrableOn_univ] at this)]
  rw [compl_Ioi, ← setIntegral_congr_fun measurableSet_Ioi e1, ← setIntegral_congr_fun measurableSet_Iic e2,
    integral_exp_mul_complex_Ioi (by simpa using hc), integral_exp_mul_complex_Iic (by simpa using hc)]
  congr 1
  · rw [Complex.ofReal_zero, mul_zero, Complex.exp_zero, ← neg_div_neg_eq]; congr 1 <;> ring
  · rw [Complex.ofReal_zero, mul_zero, Complex.exp_zero]

theorem cauchyDensity_integrable {γ : ℝ} (hγ : 0 < γ) : Integrable (cauchyDensity 0 γ) := (cauchy_density 0 hγ).2.integrable

theorem fourier_laplace {γ : ℝ} (hγ : 0 < γ) :
    𝓕 (fun t : ℝ => (Real.exp (-(2 * π * γ * |t|)) : ℂ)) = fun w => (cauchyDensity 0 γ w : ℂ) := by
  ext w
  have hpi := Real.pi_pos
  rw [Real.fourier_eq']
  have h := (laplace_kernel_integrable (c := 2 * π * γ) (by positivity) (-(2 * π * w))).2
  have e : ∀ v : ℝ, Complex.exp (((-2 * π * inner ℝ v w : ℝ) : ℂ) * Complex.I) • (Real.exp (-(2 * π * γ * |v|)) : ℂ) =
      Complex.exp ((((-(2 * π * w) : ℝ) : ℂ) * v) * Complex.I) * (Real.exp (-(2 * π * γ * |v|)) : ℂ) := by
    intro v
    rw [smul_eq_mul]; congr 2; simp; ring
  simp only [e]
  refine h.trans ?_
  have hr : cauchyDensity 0 γ w = 2 * (2 * π * γ) / ((2 * π * γ) ^ 2 + (2 * π * w) ^ 2) := by
    unfold cauchyDensity
    rw [sub_zero]
    have : 1 + (w / γ) ^ 2 ≠ 0 := by positivity
    have : γ ^ 2 + w ^ 2 ≠ 0 := by positivity
    field_simp
  rw [hr]
  have n1 : ((2 * π * γ : ℝ) : ℂ) - ((-(2 * π * w) : ℝ) : ℂ) * Complex.I ≠ 0 := by
    intro h0
    have := congrArg Complex.re h0
    simp [hpi.ne', hγ.ne'] at this
  have n2 : ((2 * π * γ : ℝ) : ℂ) + ((-(2 * π * w) : ℝ) : ℂ) * Complex.I ≠ 0 := by
    intro h0
    have := congrArg Complex.re h0
    simp [hpi.ne', hγ.ne'] at this
  rw [div_add_div _ _ n1 n2]
  push_cast at n1 n2 ⊢
  congr 1
  · ring
  · ring_nf; rw [Complex.I_sq]; ring

/-- the characteristic function of the centred Cauchy law -/
theorem cauchy_char_integral {γ : ℝ} (hγ : 0 < γ) (t : ℝ) :
    ∫ x : ℝ, Complex.exp (t * x * Complex.I) * (cauchyDensity 0 γ x : ℂ) = Real.exp (-(γ * |t|)) := by
  have hpi := Real.pi_pos
  have hint : Integrable (fun t : ℝ => (Real.exp (-(2 * π * γ * |t|)) : ℂ)) := by
    have := (laplace_kernel_integrable (c := 2 * π * γ) (by positivity) 0).1
    simpa using this
  have hF : Integrable (𝓕 (fun t : ℝ => (Real.exp (-(2 * π * γ * |t|)) : ℂ))) := by
    rw [fourier_laplace hγ]; exact (cauchyDensity_integrable hγ).ofReal
  have h := hint.fourierInv_fourier_eq hF (v := t / (2 * π)) (by fun_prop)
  rw [fourier_laplace hγ, Real.fourierInv_eq'] at h
  refine Eq.trans ?_ (h.trans ?_)
  · refine integral_congr_ae (Eventually.of_forall fun x => ?_)
    show _ = _ • _
    rw [smul_eq_mul]
    have e : 2 * π * inner ℝ x (t / (2 * π)) = t * x := by
      rw [real_inner_comm]; simp; field_simp
    rw [e]; push_cast; rfl
  · rw [abs_div, abs_of_pos (by positivity : 0 < 2 * π)]
    congr 2; field_simp

theorem cauchy_charFun (x₀ : ℝ) {γ : ℝ} (hγ : 0 < γ) (t : ℝ) :
    charFun (Law (cauchyDensity x₀ γ)) t = Complex.exp (t * x₀ * Complex.I) * Real.exp (-(γ * |t|)) := by
  rw [charFun_apply_real, Law, integral_withDensity_eq_integral_toReal_smul]
  · rw [← cauchy_char_integral hγ t, ← integral_const_mul]
    rw [← integral_sub_right_eq_self (fun x : ℝ => Complex.exp (t * x₀ * Complex.I) *
      (Complex.exp (t * x * Complex.I) * (cauchyDensity 0 γ x : ℂ))) x₀]
    refine integral_congr_ae (Eventually.of_forall fun x => ?_)
    simp only
    rw [ENNReal.toReal_ofReal ((cauchy_density x₀ hγ).2.nonneg x), ← mul_assoc, ← Complex.exp_add, Complex.real_smul, mul_comm]
    congr 1
    · congr 1; push_cast; ring
    · unfold cauchyDensity; rw [sub_zero]
  · unfold cauchyDensity; fun_prop
  · exact Eventually.of_forall fun x => ENNReal.ofReal_lt_top

/-- the law of the sum of two independent Cauchy variables -/
theorem cauchy_conv (x₀ y₀ : ℝ) {γ δ : ℝ} (hγ : 0 < γ) (hδ : 0 < δ) :
    Measure.conv (Law (cauchyDensity x₀ γ)) (Law (cauchyDensity y₀ δ)) = Law (cauchyDensity (x₀ + y₀) (γ + δ)) := by
  have i1 := (cauchy_density x₀ hγ).2.isProbability
  have i2 := (cauchy_density y₀ hδ).2.isProbability
  have i3 := (cauchy_density (x₀ + y₀) (add_pos hγ hδ)).2.isProbability
  apply Measure.ext_of_charFun
  ext t
  rw [charFun_conv, cauchy_charFun x₀ hγ, cauchy_charFun y₀ hδ, cauchy_charFun _ (add_pos hγ hδ)]
  rw [mul_mul_mul_comm, ← Complex.exp_add]
  have e : Real.exp (-((γ + δ) * |t|)) = Real.exp (-(γ * |t|)) * Real.exp (-(δ * |t|)) := by
    rw [← Real.exp_add]; congr 1; ring
  rw [e, Complex.ofReal_mul]
  congr 2; push_cast; ring
end Rstat.Spec
