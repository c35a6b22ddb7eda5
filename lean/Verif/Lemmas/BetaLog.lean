import Verif.Lemmas.BetaFn
import Verif.Lemmas.Transfer

/-! Logarithmic moments of the Beta kernel, and the digamma function. -/
namespace Rstat.Spec
open MeasureTheory Filter Topology Set Real ProbabilityTheory

/-- the Beta kernel in `b`, as a measure -/
noncomputable def betaKer (b : ℝ) : Measure ℝ := (volume.restrict (Ioo 0 1)).withDensity fun u => ENNReal.ofReal ((1 - u) ^ (b - 1))

theorem betaKer_integral (b : ℝ) (h : ℝ → ℝ) :
    (Integrable h (betaKer b) ↔ IntegrableOn (fun u => h u * (1 - u) ^ (b - 1)) (Ioo 0 1)) ∧
    ∫ u, h u ∂(betaKer b) = ∫ u in Ioo 0 1, h u * (1 - u) ^ (b - 1) := by
  have hmeas : Measurable fun u : ℝ => ENNReal.ofReal ((1 - u) ^ (b - 1)) := by fun_prop
  have hlt : ∀ᵐ u ∂((volume : Measure ℝ).restrict (Ioo 0 1)), ENNReal.ofReal ((1 - u) ^ (b - 1)) < ⊤ :=
    Eventually.of_forall fun x => ENNReal.ofReal_lt_top
  have e : ∀ u ∈ Ioo (0:ℝ) 1, (ENNReal.ofReal ((1 - u) ^ (b - 1))).toReal • h u = h u * (1 - u) ^ (b - 1) := fun u hu => by
    have : 0 ≤ 1 - u := by linarith [hu.2]
    rw [ENNReal.toReal_ofReal (by positivity), smul_eq_mul, mul_comm]
  constructor
  · rw [betaKer, integrable_withDensity_iff_integrable_smul' hmeas hlt]
    exact integrableOn_congr_fun e measurableSet_Ioo
  · rw [betaKer, integral_withDensity_eq_integral_toReal_smul hmeas hlt]
    exact setIntegral_congr_fun measurableSet_Ioo e

theorem exp_log_mul {u : ℝ} (hu : 0 < u) (s : ℝ) : rexp (s * Real.log u) = u ^ s := by
  rw [mul_comm, rpow_def_of_pos hu]

theorem betaKer_mgf {s b : ℝ} (hs : -1 < s) (hb : 0 < b) :
    s ∈ integrableExpSet Real.log (betaKer b) ∧ mgf Real.log (betaKer b) s = Beta (s + 1) b := by
  have h := beta_integral (a := s + 1) (b := b) (by linarith) hb
  simp only [add_sub_cancel_right] at h
  have e : ∀ u ∈ Ioo (0:ℝ) 1, u ^ s * (1 - u) ^ (b - 1) = rexp (s * Real.log u) * (1 - u) ^ (b - 1) := fun u hu => by
    rw [exp_log_mul hu.1]
  constructor
  · show Integrable _ _
    rw [(betaKer_integral _ _).1]
    exact h.1.congr_fun e measurableSet_Ioo
  · unfold mgf
    rw [(betaKer_integral _ _).2, ← h.2]
    exact (setIntegral_congr_fun measurableSet_Ioo e).symm

theorem Beta_pos {a b : ℝ} (ha : 0 < a) (hb : 0 < b) : 0 < Beta a b :=
  div_pos (mul_pos (Real.Gamma_pos_of_pos ha) (Real.Gamma_pos_of_pos hb)) (Real.Gamma_pos_of_pos (by linarith))

theorem Beta_symm (a b : ℝ) : Beta a b = Beta b a := by unfold Beta; rw [mul_comm, add_comm]

theorem Beta_hasDerivAt {a b : ℝ} (ha : 0 < a) (hb : 0 < b) :
    HasDerivAt (fun t => Beta t b) (Beta a b * (digamma a - digamma (a + b))) a := by
  have h1 := gamma_hasDerivAt ha
  have h2 : HasDerivAt (fun t => Real.Gamma (t + b)) (Real.Gamma (a + b) * digamma (a + b)) a := by
    have := (gamma_hasDerivAt (a := a + b) (by linarith)).comp a ((hasDerivAt_id a).add_const b)
    rwa [mul_one] at this
  have h := (h1.mul_const (Real.Gamma b)).div h2 (Real.Gamma_pos_of_pos (by linarith)).ne'
  refine HasDerivAt.congr_deriv (f := fun t => Beta t b) h ?_
  have g : Real.Gamma (a + b) ≠ 0 := (Real.Gamma_pos_of_pos (by linarith)).ne'
  unfold Beta
  field_simp

theorem betaKer_interior {s b : ℝ} (hs : -1 < s) (hb : 0 < b) : s ∈ interior (integrableExpSet Real.log (betaKer b)) :=
  mem_interior.2 ⟨Ioi (-1), fun _ ht => (betaKer_mgf ht hb).1, isOpen_Ioi, hs⟩

/-- `∫ ln u · u^{a-1} (1-u)^{b-1}` -/
theorem beta_log {a b : ℝ} (ha : 0 < a) (hb : 0 < b) :
    IntegrableOn (fun u : ℝ => Real.log u * (u ^ (a - 1) * (1 - u) ^ (b - 1))) (Ioo 0 1) ∧
    ∫ u in Ioo 0 1, Real.log u * (u ^ (a - 1) * (1 - u) ^ (b - 1)) = Beta a b * (digamma a - digamma (a + b)) := by
  have hs : -1 < a - 1 := by linarith
  have e : ∀ u ∈ Ioo (0:ℝ) 1, Real.log u ^ 1 * rexp ((a - 1) * Real.log u) * (1 - u) ^ (b - 1) =
      Real.log u * (u ^ (a - 1) * (1 - u) ^ (b - 1)) := fun u hu => by
    rw [exp_log_mul hu.1, pow_one, mul_assoc]
  constructor
  · have := integrable_pow_mul_exp_of_mem_interior_integrableExpSet (betaKer_interior hs hb) 1
    rw [(betaKer_integral _ _).1] at this
    exact this.congr_fun e measurableSet_Ioo
  · have h := iteratedDeriv_mgf (betaKer_interior hs hb) 1
    rw [(betaKer_integral _ _).2, setIntegral_congr_fun measurableSet_Ioo e, iteratedDeriv_one] at h
    rw [← h]
    have h2 : mgf Real.log (betaKer b) =ᶠ[𝓝 (a - 1)] fun s => Beta (s + 1) b := by
      filter_upwards [Ioi_mem_nhds hs] with s hs
      exact (betaKer_mgf hs hb).2
    rw [h2.deriv_eq]
    have h3 : HasDerivAt (fun s => Beta (s + 1) b) (Beta (a - 1 + 1) b * (digamma (a - 1 + 1) - digamma (a - 1 + 1 + b))) (a - 1) := by
      have := (Beta_hasDerivAt (a := a - 1 + 1) (b := b) (by linarith) hb).comp (a - 1) ((hasDerivAt_id (a - 1)).add_const 1)
      rwa [mul_one] at this
    rw [h3.deriv, sub_add_cancel]

/-- reflection `u ↦ 1 - u` on the unit interval -/
theorem unit_reflect (f : ℝ → ℝ) : (IntegrableOn (fun u => f (1 - u)) (Ioo 0 1) ↔ IntegrableOn f (Ioo 0 1)) ∧
    ∫ u in Ioo 0 1, f (1 - u) = ∫ u in Ioo 0 1, f u := by
  have e : (Ioo (0:ℝ) 1).indicator (fun u => f (1 - u)) = fun u => (Ioo (0:ℝ) 1).indicator f (1 - u) := by
    ext u
    simp only [indicator, mem_Ioo]
    have : (0 < u ∧ u < 1) ↔ (0 < 1 - u ∧ 1 - u < 1) := by constructor <;> rintro ⟨h1, h2⟩ <;> constructor <;> linarith
    simp only [this]
  constructor
  · rw [← integrable_indicator_iff measurableSet_Ioo, ← integrable_indicator_iff measurableSet_Ioo, e]
    exact integrable_comp_sub_left _ _
  · rw [← integral_indicator measurableSet_Ioo, ← integral_indicator measurableSet_Ioo, e]
    exact integral_sub_left_eq_self _ _ _

/-- `∫ ln (1-u) · u^{a-1} (1-u)^{b-1}` -/
theorem beta_log' {a b : ℝ} (ha : 0 < a) (hb : 0 < b) :
    IntegrableOn (fun u : ℝ => Real.log (1 - u) * (u ^ (a - 1) * (1 - u) ^ (b - 1))) (Ioo 0 1) ∧
    ∫ u in Ioo 0 1, Real.log (1 - u) * (u ^ (a - 1) * (1 - u) ^ (b - 1)) = Beta a b * (digamma b - digamma (a + b)) := by
  have h := beta_log hb ha
  rw [← (unit_reflect _).1, ← (unit_reflect _).2] at h
  have e : ∀ u ∈ Ioo (0:ℝ) 1, Real.log (1 - u) * ((1 - u) ^ (b - 1) * (1 - (1 - u)) ^ (a - 1)) =
      Real.log (1 - u) * (u ^ (a - 1) * (1 - u) ^ (b - 1)) := fun u _ => by rw [sub_sub_cancel]; ring
  constructor
  · exact h.1.congr_fun e measurableSet_Ioo
  · rw [← setIntegral_congr_fun measurableSet_Ioo e, h.2, Beta_symm, add_comm]

theorem digamma_add_one {a : ℝ} (ha : 0 < a) : digamma (a + 1) = digamma a + 1 / a := by
  have h1 : HasDerivAt (fun t => Real.Gamma (t + 1)) (Real.Gamma (a + 1) * digamma (a + 1)) a := by
    have := (gamma_hasDerivAt (a := a + 1) (by linarith)).comp a ((hasDerivAt_id a).add_const 1)
    rwa [mul_one] at this
  have h2 := (hasDerivAt_id a).mul (gamma_hasDerivAt ha)
  have h3 : (fun t => Real.Gamma (t + 1)) =ᶠ[𝓝 a] id * Real.Gamma := by
    filter_upwards [Ioi_mem_nhds ha] with t ht
    have ht : 0 < t := ht
    rw [Real.Gamma_add_one ht.ne']; rfl
  have h4 := (h1.congr_of_eventuallyEq h3.symm).unique h2
  have g := (Real.Gamma_pos_of_pos ha).ne'
  simp only [id] at h4
  rw [Real.Gamma_add_one ha.ne'] at h4
  field_simp
  field_simp at h4
  linarith

theorem digamma_lt {a b : ℝ} (ha : 0 < a) (hb : a < b) : digamma a < digamma b := by
  obtain ⟨hi, hv⟩ := beta_log ha (b := b - a) (by linarith)
  rw [add_sub_cancel] at hv
  have hneg : 0 < ∫ u in Ioo (0:ℝ) 1, -(Real.log u * (u ^ (a - 1) * (1 - u) ^ (b - a - 1))) := by
    have hp : ∀ u ∈ Ioo (0:ℝ) 1, 0 < -(Real.log u * (u ^ (a - 1) * (1 - u) ^ (b - a - 1))) := fun u hu => by
      have h1 : 0 < 1 - u := by linarith [hu.2]
      have := hu.1
      have hl := Real.log_neg hu.1 hu.2
      have : 0 < u ^ (a - 1) * (1 - u) ^ (b - a - 1) := by positivity
      nlinarith
    rw [setIntegral_pos_iff_support_of_nonneg_ae]
    · have : Function.support (fun u => -(Real.log u * (u ^ (a - 1) * (1 - u) ^ (b - a - 1)))) ∩ Ioo 0 1 = Ioo (0:ℝ) 1 :=
        inter_eq_right.2 fun u hu => (hp u hu).ne'
      rw [this, Real.volume_Ioo]; simp
    · exact (ae_restrict_iff' measurableSet_Ioo).2 (Eventually.of_forall fun u hu => (hp u hu).le)
    · exact hi.neg
  rw [integral_neg, hv] at hneg
  have hB := Beta_pos ha (b := b - a) (by linarith)
  nlinarith

theorem digamma_inj {a b : ℝ} (ha : 0 < a) (hb : 0 < b) : digamma a = digamma b ↔ a = b := by
  constructor
  · intro h
    rcases lt_trichotomy a b with hl | hl | hl
    · exact absurd h (digamma_lt ha hl).ne
    · exact hl
    · exact absurd h (digamma_lt hb hl).ne'
  · rintro rfl; rfl

theorem digamma_nat (n : ℕ) : digamma (n + 1) - digamma 1 = ∑ i ∈ Finset.range n, 1 / ((i : ℝ) + 1) := by
  induction n with
  | zero => simp
  | succ n ih =>
    rw [Finset.sum_range_succ, ← ih, Nat.cast_add, Nat.cast_one, digamma_add_one (by positivity)]; ring

end Rstat.Spec
