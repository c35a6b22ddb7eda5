import Verif.Lemmas.Dist.Gamma
import Verif.Lemmas.BetaLog
import Mathlib.Probability.Moments.ComplexMGF
import Mathlib.MeasureTheory.Measure.CharacteristicFunction.Basic
import Mathlib.MeasureTheory.Group.Convolution
import Mathlib.Analysis.SpecialFunctions.Pow.Deriv
import Mathlib.Analysis.Complex.CauchyIntegral

/-! More on the Gamma law: entropy, mode, characteristic function, sums. -/
namespace Rstat.Spec
open MeasureTheory Filter Topology Set Real ProbabilityTheory

theorem gammaPDF_pos_eq {a r x : ℝ} (hx : 0 < x) :
    gammaPDFReal a r x = r ^ a / Real.Gamma a * x ^ (a - 1) * rexp (-(r * x)) := by
  rw [gammaPDFReal, if_pos hx.le]
theorem gammaPDF_neg {a r x : ℝ} (hx : x < 0) : gammaPDFReal a r x = 0 := by
  rw [gammaPDFReal, if_neg (not_le.2 hx)]

theorem gamma_std_entropy {a : ℝ} (ha : 0 < a) :
    HasEntropy (gammaPDFReal a 1) (a + Real.log (Real.Gamma a) + (1 - a) * digamma a) := by
  have hG := Real.Gamma_pos_of_pos ha
  obtain ⟨i1, v1⟩ := log_gamma_mean ha
  have i2 := gamma_integrableOn (a := a + 1) (by linarith)
  have i3 := gamma_integrableOn ha
  have v2 : ∫ t in Ioi (0 : ℝ), t ^ (a + 1 - 1) * rexp (-t) = a * Real.Gamma a := by
    rw [← Real.Gamma_add_one ha.ne', Real.Gamma_eq_integral (by linarith)]; congr 1; ext t; ring
  have v3 : ∫ t in Ioi (0 : ℝ), t ^ (a - 1) * rexp (-t) = Real.Gamma a := by
    rw [Real.Gamma_eq_integral ha]; congr 1; ext t; ring
  have key := supp_integral_Ioi (a := 0) (F := fun x => gammaPDFReal a 1 x * Real.log (gammaPDFReal a 1 x))
    (G := fun t => ((a - 1) / Real.Gamma a) * (Real.log t * (t ^ (a - 1) * rexp (-t))) -
      (1 / Real.Gamma a) * (t ^ (a + 1 - 1) * rexp (-t)) -
      (Real.log (Real.Gamma a) / Real.Gamma a) * (t ^ (a - 1) * rexp (-t)))
    (fun x hx => by
      show gammaPDFReal a 1 x * Real.log (gammaPDFReal a 1 x) = _
      rw [gammaPDF_pos_eq hx, one_rpow, one_mul]
      have hp : 0 < x ^ (a - 1) := Real.rpow_pos_of_pos hx _
      rw [Real.log_mul (by positivity) (Real.exp_pos _).ne', Real.log_mul (by positivity) hp.ne', Real.log_exp,
        Real.log_rpow hx, one_div, Real.log_inv, add_sub_cancel_right]
      have : x ^ a = x ^ (a - 1) * x := by rw [← Real.rpow_add_one hx.ne']; congr 1; ring
      rw [this]
      field_simp; ring)
    (fun x hx => by
      show gammaPDFReal a 1 x * Real.log (gammaPDFReal a 1 x) = 0
      rw [gammaPDF_neg hx, zero_mul])
    (((i1.const_mul _).sub (i2.const_mul _)).sub (i3.const_mul _))
  refine ⟨key.1, ?_⟩
  have h12 : IntegrableOn (fun t => ((a - 1) / Real.Gamma a) * (Real.log t * (t ^ (a - 1) * rexp (-t))) -
      (1 / Real.Gamma a) * (t ^ (a + 1 - 1) * rexp (-t))) (Ioi 0) := (i1.const_mul _).sub (i2.const_mul _)
  rw [key.2, integral_sub h12 (i3.const_mul _),
    integral_sub (i1.const_mul _) (i2.const_mul _), integral_const_mul, integral_const_mul, integral_const_mul, v1, v2, v3]
  field_simp; ring

theorem gamma_entropy {a r : ℝ} (ha : 0 < a) (hr : 0 < r) :
    HasEntropy (gammaPDFReal a r) (a - Real.log r + Real.log (Real.Gamma a) + (1 - a) * digamma a) := by
  have hr' : 0 < 1 / r := by positivity
  rw [gamma_locScale hr]
  have := locScale_entropy (m := 0) hr' (gamma_std_density ha).2 (gamma_std_entropy ha)
  have e : a - Real.log r + Real.log (Real.Gamma a) + (1 - a) * digamma a =
    a + Real.log (Real.Gamma a) + (1 - a) * digamma a + Real.log (1 / r) := by
    rw [one_div, Real.log_inv]; ring
  rw [e]; exact this

/-- `u^c e^{-u}` is largest at `u = c` -/
theorem rpow_exp_le {c u : ℝ} (hc : 0 ≤ c) (hu : 0 ≤ u) : u ^ c * rexp (-u) ≤ c ^ c * rexp (-c) := by
  rcases hc.eq_or_lt with rfl | hc
  · simp [hu]
  rcases hu.eq_or_lt with rfl | hu
  · rw [Real.zero_rpow hc.ne', zero_mul]; positivity
  rw [← exp_log_mul hu, ← exp_log_mul hc, ← Real.exp_add, ← Real.exp_add, Real.exp_le_exp]
  have h := Real.log_le_sub_one_of_pos (div_pos hu hc)
  rw [Real.log_div hu.ne' hc.ne'] at h
  have := mul_le_mul_of_nonneg_left h hc.le
  have e : c * (u / c - 1) = u - c := by field_simp
  rw [e] at this
  linarith

theorem gamma_mode {a r : ℝ} (ha : 1 ≤ a) (hr : 0 < r) : IsMode (gammaPDFReal a r) ((a - 1) / r) := by
  intro x
  have hG := Real.Gamma_pos_of_pos (by linarith : 0 < a)
  have hm : 0 ≤ (a - 1) / r := by apply div_nonneg <;> linarith
  rw [gammaPDFReal, gammaPDFReal, if_pos hm]
  have c0 : 0 ≤ a - 1 := by linarith
  split_ifs with h
  · have key := rpow_exp_le c0 (mul_nonneg hr.le h)
    have e : r * ((a - 1) / r) = a - 1 := by field_simp
    rw [e, Real.div_rpow c0 hr.le, mul_assoc, mul_assoc]
    rw [Real.mul_rpow hr.le h] at key
    have hp : 0 < r ^ (a - 1) := Real.rpow_pos_of_pos hr _
    gcongr ?_ * ?_
    rw [div_mul_eq_mul_div, le_div_iff₀ hp]
    calc _ = r ^ (a - 1) * x ^ (a - 1) * rexp (-(r * x)) := by ring
      _ ≤ _ := key
  · positivity

theorem gammaPDF_tilt {a r t : ℝ} (hr : 0 < r) (ht : t < r) (x : ℝ) :
    rexp (t * x) * gammaPDFReal a r x = (r / (r - t)) ^ a * gammaPDFReal a (r - t) x := by
  have h : 0 < r - t := by linarith
  unfold gammaPDFReal
  split_ifs with hx
  · have e : rexp (-((r - t) * x)) = rexp (t * x) * rexp (-(r * x)) := by rw [← Real.exp_add]; congr 1; ring
    have hp : (r - t) ^ a ≠ 0 := (Real.rpow_pos_of_pos h _).ne'
    rw [e, Real.div_rpow hr.le h.le]
    generalize x ^ (a - 1) = X
    generalize Real.Gamma a = G
    field_simp
  · simp

theorem gamma_measurable (a r : ℝ) : Measurable (gammaPDFReal a r) := measurable_gammaPDFReal a r

theorem integral_law {f F : ℝ → ℝ} (h : IsDensityOf f F) (hm : Measurable f) (g : ℝ → ℝ) :
    (Integrable g (Law f) ↔ Integrable fun x => g x * f x) ∧ ∫ x, g x ∂(Law f) = ∫ x, g x * f x := by
  have hm' : Measurable fun x => ENNReal.ofReal (f x) := hm.ennreal_ofReal
  have e : ∀ x, (ENNReal.ofReal (f x)).toReal • g x = g x * f x := fun x => by
    rw [ENNReal.toReal_ofReal (h.nonneg x), smul_eq_mul, mul_comm]
  constructor
  · rw [Law, integrable_withDensity_iff_integrable_smul₀' hm'.aemeasurable (Eventually.of_forall fun _ => ENNReal.ofReal_lt_top)]
    simp only [e]
  · rw [Law, integral_withDensity_eq_integral_toReal_smul hm' (Eventually.of_forall fun _ => ENNReal.ofReal_lt_top)]
    simp only [e]

theorem gamma_mgf {a r t : ℝ} (ha : 0 < a) (hr : 0 < r) (ht : t < r) :
    t ∈ integrableExpSet id (Law (gammaPDFReal a r)) ∧
    mgf id (Law (gammaPDFReal a r)) t = (r / (r - t)) ^ a := by
  have h : 0 < r - t := by linarith
  have hd := (gamma_density ha hr).2
  have hd' := (gamma_density ha h).2
  have il := integral_law hd (gamma_measurable a r) fun x => rexp (t * x)
  constructor
  · show Integrable (fun x => rexp (t * id x)) _
    simp only [id]
    rw [il.1]
    simp only [gammaPDF_tilt hr ht]
    exact hd'.integrable.const_mul _
  · rw [mgf]
    simp only [id]
    rw [il.2]
    simp only [gammaPDF_tilt hr ht]
    rw [integral_const_mul, hd'.total, mul_one]

theorem gamma_charFun {a r : ℝ} (ha : 0 < a) (hr : 0 < r) (t : ℝ) :
    charFun (Law (gammaPDFReal a r)) t = ((r : ℂ) / (r - t * Complex.I)) ^ (a : ℂ) := by
  have hint : interior (integrableExpSet id (Law (gammaPDFReal a r))) ⊇ Iio r :=
    interior_maximal (fun s hs => (gamma_mgf ha hr hs).1) isOpen_Iio
  have hX : AnalyticOnNhd ℂ (complexMGF id (Law (gammaPDFReal a r))) {z | z.re < r} := fun z hz =>
    analyticOnNhd_complexMGF z (hint hz)
  have hne : ∀ z : ℂ, z.re < r → (r : ℂ) - z ≠ 0 := fun z hz h0 => by
    have := congrArg Complex.re h0
    simp at this; linarith
  have hslit : ∀ z : ℂ, z.re < r → (r : ℂ) / (r - z) ∈ Complex.slitPlane := fun z hz => by
    left
    rw [Complex.div_re]
    simp only [Complex.ofReal_re, Complex.ofReal_im, zero_mul, zero_div, add_zero, Complex.sub_re]
    have : 0 < Complex.normSq ((r : ℂ) - z) := Complex.normSq_pos.2 (hne z hz)
    have : 0 < r - z.re := by linarith
    positivity
  have hopen : IsOpen {z : ℂ | z.re < r} := isOpen_lt Complex.continuous_re continuous_const
  have hY : AnalyticOnNhd ℂ (fun z : ℂ => ((r : ℂ) / (r - z)) ^ (a : ℂ)) {z | z.re < r} := by
    refine DifferentiableOn.analyticOnNhd (fun z hz => ?_) hopen
    refine (DifferentiableAt.cpow (f := fun z : ℂ => (r : ℂ) / (r - z)) (g := fun _ => (a : ℂ)) ?_
      (differentiableAt_const _) (hslit z hz)).differentiableWithinAt
    have hd : DifferentiableAt ℂ (fun z : ℂ => (r : ℂ) - z) z := (differentiableAt_const _).sub differentiableAt_id
    exact (differentiableAt_const (r : ℂ)).fun_div hd (hne z hz)
  have heq : EqOn (complexMGF id (Law (gammaPDFReal a r))) (fun z : ℂ => ((r : ℂ) / (r - z)) ^ (a : ℂ)) {z | z.re < r} := by
    refine hX.eqOn_of_preconnected_of_frequently_eq hY
      ((convex_Iio r).linear_preimage Complex.reLm).isPreconnected (z₀ := 0) (by simpa using hr) ?_
    have h_real : ∃ᶠ x : ℝ in 𝓝[≠] 0, complexMGF id (Law (gammaPDFReal a r)) x = ((r : ℂ) / (r - (x : ℂ))) ^ (a : ℂ) := by
      refine Eventually.frequently ?_
      have : ∀ᶠ x : ℝ in 𝓝[≠] 0, x < r := nhdsWithin_le_nhds (Iio_mem_nhds hr)
      filter_upwards [this] with x hx
      rw [complexMGF_ofReal, (gamma_mgf ha hr hx).2, Complex.ofReal_cpow (div_pos hr (by linarith)).le]
      push_cast; rfl
    rw [frequently_iff_seq_forall] at h_real ⊢
    obtain ⟨xs, hx_tendsto, hx_eq⟩ := h_real
    refine ⟨fun n ↦ xs n, ?_, fun n ↦ hx_eq n⟩
    rw [tendsto_nhdsWithin_iff] at hx_tendsto ⊢
    refine ⟨?_, ?_⟩
    · have := (Complex.continuous_ofReal.tendsto 0).comp hx_tendsto.1
      rw [Complex.ofReal_zero] at this
      exact this
    · simpa using hx_tendsto.2
  have := heq (show ((t : ℂ) * Complex.I).re < r by simpa using hr)
  rw [complexMGF_id_mul_I] at this
  exact this

/-- the law of the sum of two independent Gamma variables with the same rate -/
theorem gamma_conv {a b r : ℝ} (ha : 0 < a) (hb : 0 < b) (hr : 0 < r) :
    Measure.conv (Law (gammaPDFReal a r)) (Law (gammaPDFReal b r)) = Law (gammaPDFReal (a + b) r) := by
  have i1 := (gamma_density ha hr).2.isProbability
  have i2 := (gamma_density hb hr).2.isProbability
  have i3 := (gamma_density (add_pos ha hb) hr).2.isProbability
  apply Measure.ext_of_charFun
  ext t
  rw [charFun_conv, gamma_charFun ha hr, gamma_charFun hb hr, gamma_charFun (add_pos ha hb) hr]
  rw [Complex.ofReal_add, Complex.cpow_add]
  apply div_ne_zero (by simpa using hr.ne')
  intro h0
  have := congrArg Complex.re h0
  simp [hr.ne'] at this

/-- Γ takes the value 1 at 1 and 2 only (on the positive half line) -/
theorem Gamma_eq_one_iff {a : ℝ} (ha : 0 < a) : Real.Gamma a = 1 ↔ a = 1 ∨ a = 2 := by
  constructor
  · intro h
    by_contra hne
    push Not at hne
    have hcont : ∀ x : ℝ, 0 < x → ContinuousAt Real.Gamma x := fun x hx => (gamma_hasDerivAt hx).continuousAt
    -- two equal values give a zero of digamma strictly between
    have rolle : ∀ x y : ℝ, 0 < x → x < y → Real.Gamma x = Real.Gamma y → ∃ c ∈ Ioo x y, digamma c = 0 := by
      intro x y hx hxy he
      obtain ⟨c, hc, h0⟩ := exists_hasDerivAt_eq_zero (f := Real.Gamma) (f' := fun u => Real.Gamma u * digamma u) hxy
        (fun u hu => (hcont u (lt_of_lt_of_le hx hu.1)).continuousWithinAt) he
        fun u hu => gamma_hasDerivAt (hx.trans hu.1)
      exact ⟨c, hc, (mul_eq_zero.1 h0).resolve_left (Real.Gamma_pos_of_pos (hx.trans hc.1)).ne'⟩
    have three : ∀ x y z : ℝ, 0 < x → x < y → y < z → Real.Gamma x = 1 → Real.Gamma y = 1 → Real.Gamma z = 1 → False := by
      intro x y z hx hxy hyz h1 h2 h3
      obtain ⟨c, hc, hc0⟩ := rolle x y hx hxy (h1.trans h2.symm)
      obtain ⟨e, he, he0⟩ := rolle y z (hx.trans hxy) hyz (h2.trans h3.symm)
      have := digamma_lt (hx.trans hc.1) (hc.2.trans he.1)
      rw [hc0, he0] at this
      exact lt_irrefl _ this
    have g2 : Real.Gamma 2 = 1 := Real.Gamma_two
    rcases lt_or_gt_of_ne hne.1 with h1 | h1
    · exact three a 1 2 ha h1 one_lt_two h Real.Gamma_one g2
    · rcases lt_or_gt_of_ne hne.2 with h2 | h2
      · exact three 1 a 2 one_pos h1 h2 Real.Gamma_one h g2
      · exact three 1 2 a one_pos one_lt_two h2 Real.Gamma_one g2 h
  · rintro (rfl | rfl)
    · exact Real.Gamma_one
    · exact Real.Gamma_two

theorem gammaP_pos {a x : ℝ} (ha : 0 < a) (hx : 0 < x) : 0 < gammaP a x := by
  refine div_pos ?_ (Real.Gamma_pos_of_pos ha)
  exact intervalIntegral.intervalIntegral_pos_of_pos_on (gamma_intervalIntegrable ha hx.le)
    (fun t ht => mul_pos (Real.rpow_pos_of_pos ht.1 _) (Real.exp_pos _)) hx

theorem gammaP_strictMono {a x y : ℝ} (ha : 0 < a) (hx : 0 < x) (hxy : x < y) : gammaP a x < gammaP a y := by
  obtain ⟨c, hc, h⟩ := exists_hasDerivAt_eq_slope (gammaP a) (fun u => u ^ (a - 1) * rexp (-u) / Real.Gamma a) hxy
    (fun u hu => (gammaP_hasDerivAt ha (lt_of_lt_of_le hx hu.1)).continuousAt.continuousWithinAt)
    fun u hu => gammaP_hasDerivAt ha (hx.trans hu.1)
  have hp : 0 < c ^ (a - 1) * rexp (-c) / Real.Gamma a := by
    have := Real.Gamma_pos_of_pos ha
    have := Real.rpow_pos_of_pos (hx.trans hc.1) (a - 1)
    positivity
  rw [h] at hp
  have := (div_pos_iff_of_pos_right (by linarith : 0 < y - x)).1 hp
  linarith

theorem gammaP_lt_one {a x : ℝ} (ha : 0 < a) (hx : 0 < x) : gammaP a x < 1 := by
  have h1 := gammaP_strictMono ha hx (lt_add_one x)
  have hF := (gamma_density ha one_pos).1
  have := hF.le_one (x + 1)
  rw [gammaCDF, if_neg (by linarith), one_mul] at this
  linarith
end Rstat.Spec
