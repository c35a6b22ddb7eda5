import Verif.Lemmas.BetaLog
import Verif.Lemmas.Dist.Kumaraswamy
import Verif.Spec.BetaFamilies
import Mathlib.Probability.Distributions.Beta
import Mathlib.MeasureTheory.Integral.IntervalIntegral.FundThmCalculus
import Mathlib.Analysis.SpecialFunctions.ImproperIntegrals

/-! The Beta and Beta prime laws. -/
namespace Rstat.Spec
open MeasureTheory Filter Topology Set Real

theorem beta_eq (a b : ℝ) : ProbabilityTheory.beta a b = Beta a b := rfl

/-- weight of the Beta law on the unit interval -/
noncomputable def betaW (a b u : ℝ) : ℝ := u ^ (a - 1) * (1 - u) ^ (b - 1) / Beta a b

theorem betaPDF_inside {a b u : ℝ} (hu : u ∈ Ioo (0:ℝ) 1) : ProbabilityTheory.betaPDFReal a b u = betaW a b u := by
  rw [ProbabilityTheory.betaPDFReal, if_pos (show 0 < u ∧ u < 1 from hu), beta_eq, betaW]; ring

theorem betaPDF_outside {a b u : ℝ} (hu : u ∉ Ioo (0:ℝ) 1) : ProbabilityTheory.betaPDFReal a b u = 0 := by
  rw [ProbabilityTheory.betaPDFReal, if_neg (show ¬ (0 < u ∧ u < 1) from hu)]

theorem betaW_pos {a b u : ℝ} (ha : 0 < a) (hb : 0 < b) (hu : u ∈ Ioo (0:ℝ) 1) : 0 < betaW a b u := by
  have h1 := hu.1
  have h2 : 0 < 1 - u := by linarith [hu.2]
  have := Beta_pos ha hb
  unfold betaW; positivity

theorem beta_intervalIntegrable {a b x : ℝ} (ha : 0 < a) (hb : 0 < b) (h0 : 0 ≤ x) (h1 : x ≤ 1) :
    IntervalIntegrable (fun t : ℝ => t ^ (a - 1) * (1 - t) ^ (b - 1)) volume 0 x := by
  rw [intervalIntegrable_iff_integrableOn_Ioo_of_le h0]
  exact (beta_integral ha hb).1.mono_set (Ioo_subset_Ioo_right h1)

theorem betaI_hasDerivAt {a b x : ℝ} (ha : 0 < a) (hb : 0 < b) (hx : x ∈ Ioo (0:ℝ) 1) :
    HasDerivAt (fun x => betaI x a b) (betaW a b x) x := by
  have h1 : 1 - x ≠ 0 := by linarith [hx.2]
  have hc : ContinuousAt (fun t : ℝ => t ^ (a - 1) * (1 - t) ^ (b - 1)) x :=
    (Real.continuousAt_rpow_const _ _ (Or.inl hx.1.ne')).mul
      (ContinuousAt.rpow_const (continuousAt_const.sub continuousAt_id) (Or.inl h1))
  have h := intervalIntegral.integral_hasDerivAt_right (beta_intervalIntegrable ha hb hx.1.le hx.2.le)
    (f := fun t : ℝ => t ^ (a - 1) * (1 - t) ^ (b - 1))
    (Measurable.aestronglyMeasurable (by fun_prop)).stronglyMeasurableAtFilter hc
  exact h.div_const _

theorem betaI_zero (a b : ℝ) : betaI 0 a b = 0 := by simp [betaI]

theorem betaI_one {a b : ℝ} (ha : 0 < a) (hb : 0 < b) : betaI 1 a b = 1 := by
  rw [betaI, intervalIntegral.integral_of_le zero_le_one, integral_Ioc_eq_integral_Ioo, (beta_integral ha hb).2,
    div_self (Beta_pos ha hb).ne']

theorem betaI_continuousOn {a b : ℝ} (ha : 0 < a) (hb : 0 < b) : ContinuousOn (fun x => betaI x a b) (Icc 0 1) := by
  have h := intervalIntegral.continuousOn_primitive_interval' (beta_intervalIntegrable ha hb zero_le_one le_rfl)
    (left_mem_uIcc (a := (0 : ℝ)) (b := 1))
  rw [uIcc_of_le zero_le_one] at h
  exact h.div_const _

theorem beta_density {a b : ℝ} (ha : 0 < a) (hb : 0 < b) :
    IsCDF (betaCDF a b) ∧ IsDensityOf (ProbabilityTheory.betaPDFReal a b) (betaCDF a b) := by
  have h := clamp_density (a := 0) (b := 1) (G := fun x => betaI x a b) (g := betaW a b) one_pos
    (fun x hx => betaI_hasDerivAt ha hb hx) (fun x hx => (betaW_pos ha hb hx).le) (betaI_zero a b) (betaI_one ha hb)
    (betaI_continuousOn ha hb)
  refine ⟨h.1, ?_⟩
  have e : ProbabilityTheory.betaPDFReal a b = fun x => if x ≤ 0 ∨ 1 ≤ x then 0 else betaW a b x := by
    ext x
    split_ifs with hx
    · exact betaPDF_outside (by rintro ⟨h1, h2⟩; rcases hx with h | h <;> linarith)
    · push Not at hx; exact betaPDF_inside hx
  rw [e]; exact h.2

/-- expectations under the Beta law as integrals over the unit interval -/
theorem beta_supp {a b : ℝ} (h : ℝ → ℝ) :
    (Integrable (fun x => h x * ProbabilityTheory.betaPDFReal a b x) ↔ IntegrableOn (fun u => h u * betaW a b u) (Ioo 0 1)) ∧
    ∫ x, h x * ProbabilityTheory.betaPDFReal a b x = ∫ u in Ioo 0 1, h u * betaW a b u := by
  have e : (fun x => h x * ProbabilityTheory.betaPDFReal a b x) = (Ioo (0:ℝ) 1).indicator (fun u => h u * betaW a b u) := by
    ext x
    by_cases hx : x ∈ Ioo (0:ℝ) 1
    · rw [indicator_of_mem hx, betaPDF_inside hx]
    · rw [indicator_of_notMem hx, betaPDF_outside hx, mul_zero]
  rw [e, integrable_indicator_iff measurableSet_Ioo, integral_indicator measurableSet_Ioo]
  exact ⟨Iff.rfl, rfl⟩

/-- `E U^p (1-U)^q = B(a+p, b+q)/B(a,b)` -/
theorem beta_exp {a b p q : ℝ} (ha : 0 < a + p) (hb : 0 < b + q) :
    IntegrableOn (fun u : ℝ => u ^ p * (1 - u) ^ q * betaW a b u) (Ioo 0 1) ∧
    ∫ u in Ioo 0 1, u ^ p * (1 - u) ^ q * betaW a b u = Beta (a + p) (b + q) / Beta a b := by
  have h := beta_integral ha hb
  have e : ∀ u ∈ Ioo (0:ℝ) 1, (Beta a b)⁻¹ * (u ^ (a + p - 1) * (1 - u) ^ (b + q - 1)) = u ^ p * (1 - u) ^ q * betaW a b u :=
    fun u hu => by
      have h1 : 0 < 1 - u := by linarith [hu.2]
      rw [betaW, show a + p - 1 = p + (a - 1) by ring, show b + q - 1 = q + (b - 1) by ring, rpow_add hu.1, rpow_add h1]
      ring
  refine ⟨IntegrableOn.congr_fun (h.1.const_mul _) e measurableSet_Ioo, ?_⟩
  rw [← setIntegral_congr_fun measurableSet_Ioo e, integral_const_mul, h.2]; ring

/-- `E ln U` and `E ln (1-U)` -/
theorem beta_exp_log {a b : ℝ} (ha : 0 < a) (hb : 0 < b) :
    (IntegrableOn (fun u : ℝ => Real.log u * betaW a b u) (Ioo 0 1) ∧
      ∫ u in Ioo 0 1, Real.log u * betaW a b u = digamma a - digamma (a + b)) ∧
    (IntegrableOn (fun u : ℝ => Real.log (1 - u) * betaW a b u) (Ioo 0 1) ∧
      ∫ u in Ioo 0 1, Real.log (1 - u) * betaW a b u = digamma b - digamma (a + b)) ∧
    (IntegrableOn (betaW a b) (Ioo 0 1) ∧ ∫ u in Ioo 0 1, betaW a b u = 1) := by
  have hB := (Beta_pos ha hb).ne'
  have l1 := beta_log ha hb
  have l2 := beta_log' ha hb
  have l0 := beta_integral ha hb
  have e1 : ∀ u ∈ Ioo (0:ℝ) 1, (Beta a b)⁻¹ * (Real.log u * (u ^ (a - 1) * (1 - u) ^ (b - 1))) = Real.log u * betaW a b u :=
    fun u _ => by rw [betaW]; ring
  have e2 : ∀ u ∈ Ioo (0:ℝ) 1, (Beta a b)⁻¹ * (Real.log (1 - u) * (u ^ (a - 1) * (1 - u) ^ (b - 1))) = Real.log (1 - u) * betaW a b u :=
    fun u _ => by rw [betaW]; ring
  have e0 : ∀ u ∈ Ioo (0:ℝ) 1, (Beta a b)⁻¹ * (u ^ (a - 1) * (1 - u) ^ (b - 1)) = betaW a b u := fun u _ => by rw [betaW]; ring
  refine ⟨⟨IntegrableOn.congr_fun (l1.1.const_mul _) e1 measurableSet_Ioo, ?_⟩,
    ⟨IntegrableOn.congr_fun (l2.1.const_mul _) e2 measurableSet_Ioo, ?_⟩,
    ⟨IntegrableOn.congr_fun (l0.1.const_mul _) e0 measurableSet_Ioo, ?_⟩⟩
  · rw [← setIntegral_congr_fun measurableSet_Ioo e1, integral_const_mul, l1.2]; field_simp
  · rw [← setIntegral_congr_fun measurableSet_Ioo e2, integral_const_mul, l2.2]; field_simp
  · rw [← setIntegral_congr_fun measurableSet_Ioo e0, integral_const_mul, l0.2]; field_simp

theorem Beta_succ {a b : ℝ} (ha : 0 < a) (hb : 0 < b) : Beta (a + 1) b = a / (a + b) * Beta a b := by
  have h1 := (Real.Gamma_pos_of_pos (add_pos ha hb)).ne'
  have h2 : a + b ≠ 0 := by linarith
  unfold Beta
  rw [show a + 1 + b = (a + b) + 1 by ring, Real.Gamma_add_one ha.ne', Real.Gamma_add_one h2]
  field_simp

theorem Beta_succ' {a b : ℝ} (ha : 0 < a) (hb : 0 < b) : Beta a (b + 1) = b / (a + b) * Beta a b := by
  rw [Beta_symm, Beta_succ hb ha, Beta_symm, add_comm b a]

/-- raw moments -/
theorem beta_raw {a b : ℝ} (ha : 0 < a) (hb : 0 < b) (n : ℕ) :
    HasCentral (ProbabilityTheory.betaPDFReal a b) 0 n (Beta (a + n) b / Beta a b) := by
  have h := beta_exp (a := a) (b := b) (p := n) (q := 0) (by positivity) (by linarith)
  unfold HasCentral
  obtain ⟨h1, h2⟩ := beta_supp (a := a) (b := b) (fun x => (x - 0) ^ n)
  have e : ∀ u ∈ Ioo (0:ℝ) 1, u ^ (n:ℝ) * (1 - u) ^ (0:ℝ) * betaW a b u = (u - 0) ^ n * betaW a b u := fun u _ => by
    rw [rpow_zero, mul_one, rpow_natCast, sub_zero]
  rw [h1, h2, ← setIntegral_congr_fun measurableSet_Ioo e, h.2, add_zero]
  exact ⟨h.1.congr_fun e measurableSet_Ioo, rfl⟩

theorem beta_raws {a b : ℝ} (ha : 0 < a) (hb : 0 < b) :
    HasMean (ProbabilityTheory.betaPDFReal a b) (a / (a + b)) ∧
    HasCentral (ProbabilityTheory.betaPDFReal a b) 0 2 (a * (a + 1) / ((a + b) * (a + b + 1))) ∧
    HasCentral (ProbabilityTheory.betaPDFReal a b) 0 3 (a * (a + 1) * (a + 2) / ((a + b) * (a + b + 1) * (a + b + 2))) ∧
    HasCentral (ProbabilityTheory.betaPDFReal a b) 0 4
      (a * (a + 1) * (a + 2) * (a + 3) / ((a + b) * (a + b + 1) * (a + b + 2) * (a + b + 3))) := by
  have hB := (Beta_pos ha hb).ne'
  have s1 := Beta_succ ha hb
  have s2 := Beta_succ (a := a + 1) (by linarith) hb
  have s3 := Beta_succ (a := a + 1 + 1) (by linarith) hb
  have s4 := Beta_succ (a := a + 1 + 1 + 1) (by linarith) hb
  have n0 : a + b ≠ 0 := by linarith
  have n1 : a + b + 1 ≠ 0 := by linarith
  have n2 : a + b + 2 ≠ 0 := by linarith
  have n3 : a + b + 3 ≠ 0 := by linarith
  refine ⟨hasMean_iff_raw.2 ((beta_raw ha hb 1).congr_val ?_), (beta_raw ha hb 2).congr_val ?_, (beta_raw ha hb 3).congr_val ?_,
    (beta_raw ha hb 4).congr_val ?_⟩
  · rw [Nat.cast_one, s1]; field_simp
  · rw [show a + ((2:ℕ):ℝ) = a + 1 + 1 by push_cast; ring, s2, s1, show a + 1 + b = a + b + 1 by ring]; field_simp
  · rw [show a + ((3:ℕ):ℝ) = a + 1 + 1 + 1 by push_cast; ring, s3, s2, s1, show a + 1 + b = a + b + 1 by ring,
      show a + 1 + 1 + b = a + b + 2 by ring]; field_simp; ring
  · rw [show a + ((4:ℕ):ℝ) = a + 1 + 1 + 1 + 1 by push_cast; ring, s4, s3, s2, s1, show a + 1 + b = a + b + 1 by ring,
      show a + 1 + 1 + b = a + b + 2 by ring, show a + 1 + 1 + 1 + b = a + b + 3 by ring]; field_simp; ring

/-- differential entropy -/
theorem beta_entropy {a b : ℝ} (ha : 0 < a) (hb : 0 < b) :
    HasEntropy (ProbabilityTheory.betaPDFReal a b)
      (Real.log (Beta a b) - (a - 1) * digamma a - (b - 1) * digamma b + (a + b - 2) * digamma (a + b)) := by
  have hB := Beta_pos ha hb
  obtain ⟨l1, l2, l0⟩ := beta_exp_log ha hb
  obtain ⟨h1, h2⟩ := beta_supp (a := a) (b := b) (fun x => Real.log (ProbabilityTheory.betaPDFReal a b x))
  have e : ∀ u ∈ Ioo (0:ℝ) 1,
      (a - 1) * (Real.log u * betaW a b u) + (b - 1) * (Real.log (1 - u) * betaW a b u) - Real.log (Beta a b) * betaW a b u =
      Real.log (ProbabilityTheory.betaPDFReal a b u) * betaW a b u := fun u hu => by
    have h0 := hu.1
    have h1 : 0 < 1 - u := by linarith [hu.2]
    rw [betaPDF_inside hu]
    conv_rhs => rw [betaW, Real.log_div (by positivity) hB.ne', Real.log_mul (by positivity) (by positivity), Real.log_rpow h0,
      Real.log_rpow h1]
    rw [betaW]
    ring
  have j1 := Integrable.const_mul l1.1 (a - 1)
  have j2 := Integrable.const_mul l2.1 (b - 1)
  have j3 := Integrable.const_mul l0.1 (Real.log (Beta a b))
  have j12 : Integrable (fun u : ℝ => (a - 1) * (Real.log u * betaW a b u) + (b - 1) * (Real.log (1 - u) * betaW a b u))
    (volume.restrict (Ioo 0 1)) := j1.add j2
  have hi := h1.2 (IntegrableOn.congr_fun (j12.sub j3) e measurableSet_Ioo)
  have hv := h2
  rw [← setIntegral_congr_fun measurableSet_Ioo e, integral_sub j12 j3, integral_add j1 j2, integral_const_mul,
    integral_const_mul, integral_const_mul, l0.2, l1.2, l2.2] at hv
  refine ⟨hi.congr (Eventually.of_forall fun x => mul_comm _ _), ?_⟩
  rw [show (fun x => ProbabilityTheory.betaPDFReal a b x * Real.log (ProbabilityTheory.betaPDFReal a b x)) =
    fun x => Real.log (ProbabilityTheory.betaPDFReal a b x) * ProbabilityTheory.betaPDFReal a b x from
      funext fun x => mul_comm _ _, hv]
  ring

theorem beta_mode {a b : ℝ} (ha : 1 < a) (hb : 1 < b) :
    IsMode (ProbabilityTheory.betaPDFReal a b) ((a - 1) / (a + b - 2)) := by
  have hs : 0 < a + b - 2 := by linarith
  have hm : (a - 1) / (a + b - 2) ∈ Ioo (0:ℝ) 1 := ⟨div_pos (by linarith) hs, (div_lt_one hs).2 (by linarith)⟩
  have hB := Beta_pos (a := a) (b := b) (by linarith) (by linarith)
  intro x
  rw [betaPDF_inside hm]
  by_cases hx : x ∈ Ioo (0:ℝ) 1
  · rw [betaPDF_inside hx]
    have := beta_kernel_max (p := a - 1) (q := b - 1) (by linarith) (by linarith) hx.1 hx.2
    rw [show a - 1 + (b - 1) = a + b - 2 by ring] at this
    unfold betaW; gcongr
  · rw [betaPDF_outside hx]; exact (betaW_pos (by linarith) (by linarith) hm).le

theorem beta_kernel_not_integrable {p q : ℝ} (hp : p ≤ -1) : ¬ IntegrableOn (fun u : ℝ => u ^ p * (1 - u) ^ q) (Ioo 0 1) := by
  intro h
  have h1 := h.mono_set (Ioo_subset_Ioo_right (by norm_num : (1/2:ℝ) ≤ 1))
  have hc : ContinuousOn (fun u : ℝ => (1 - u) ^ (-q)) (Icc 0 (1/2)) := by
    intro u hu
    exact (ContinuousAt.rpow_const (continuousAt_const.sub continuousAt_id) (Or.inl (by have := hu.2; show (1:ℝ) - u ≠ 0; linarith))).continuousWithinAt
  have h2 : IntegrableOn (fun u : ℝ => u ^ p) (Ioo 0 (1/2)) := by
    have hb := isCompact_Icc.exists_bound_of_continuousOn hc
    obtain ⟨C, hC⟩ := hb
    have h3 := Integrable.bdd_mul (c := C) (f := fun u : ℝ => (1 - u) ^ (-q)) h1 (hc.mono Ioo_subset_Icc_self |>.aestronglyMeasurable measurableSet_Ioo)
      (by
        refine (ae_restrict_iff' measurableSet_Ioo).2 (Eventually.of_forall fun u hu => ?_)
        exact hC u (Ioo_subset_Icc_self hu))
    refine IntegrableOn.congr_fun h3 (fun u hu => ?_) measurableSet_Ioo
    have h1 : 0 < 1 - u := by linarith [hu.2]
    rw [mul_left_comm, ← rpow_add h1, neg_add_cancel, rpow_zero, mul_one]
  rw [intervalIntegral.integrableOn_Ioo_rpow_iff (by norm_num)] at h2
  linarith

/-! ### Beta prime -/

theorem bp_transfer {a b : ℝ} (h : ℝ → ℝ) :
    (Integrable (fun x => h x * betaPrimePDF a b x) ↔ IntegrableOn (fun u => h (u / (1 - u)) * betaW a b u) (Ioo 0 1)) ∧
    ∫ x, h x * betaPrimePDF a b x = ∫ u in Ioo 0 1, h (u / (1 - u)) * betaW a b u := by
  refine transfer (φ := fun u => u / (1 - u)) (φ' := fun u => 1 / (1 - u) ^ 2) measurableSet_Ioo (fun u hu => ?_)
    (fun u hu v hv e => ?_) (fun u hu => ?_) ?_ h
  · have h1 : 1 - u ≠ 0 := by linarith [hu.2]
    have := (hasDerivAt_id u).div ((hasDerivAt_id u).const_sub 1) h1
    refine HasDerivAt.congr_deriv (f := fun u => u / (1 - u)) this ?_
    show (1 * (1 - u) - u * -1) / (1 - u) ^ 2 = _
    congr 1; ring
  · have h1 : 1 - u ≠ 0 := by linarith [hu.2]
    have h2 : 1 - v ≠ 0 := by linarith [hv.2]
    simp only at e
    rw [div_eq_div_iff h1 h2] at e
    linarith
  · have h0 := hu.1
    have h1 : 0 < 1 - u := by linarith [hu.2]
    have e : 1 + u / (1 - u) = (1 - u)⁻¹ := by field_simp; ring
    rw [abs_of_pos (by positivity), betaPrimePDF, if_neg (not_le.2 (by positivity)), e, div_rpow h0.le h1.le, inv_rpow h1.le,
      ← rpow_neg h1.le, betaW, show (1:ℝ) / (1 - u) ^ 2 = (1 - u) ^ (-2 : ℝ) by
        rw [rpow_neg h1.le, one_div]; norm_cast]
    have e2 : (1 - u) ^ (b - 1) = (1 - u) ^ (-2:ℝ) * (((1 - u) ^ (a - 1))⁻¹ * (1 - u) ^ (-(-a - b))) := by
      rw [← rpow_neg h1.le, ← rpow_add h1, ← rpow_add h1]; congr 1; ring
    rw [e2]; ring
  · refine Eventually.of_forall fun x hx => ?_
    rw [betaPrimePDF, if_pos]
    by_contra hn
    push Not at hn
    refine hx ⟨x / (1 + x), ⟨by positivity, (div_lt_one (by linarith)).2 (by linarith)⟩, ?_⟩
    simp only
    have : 1 - x / (1 + x) = 1 / (1 + x) := by field_simp; ring
    rw [this]; field_simp

theorem bp_density {a b : ℝ} (ha : 0 < a) (hb : 0 < b) :
    IsCDF (betaPrimeCDF a b) ∧ IsDensityOf (betaPrimePDF a b) (betaPrimeCDF a b) := by
  have hB := Beta_pos ha hb
  have hin : ∀ x : ℝ, 0 < x → x / (1 + x) ∈ Ioo (0:ℝ) 1 := fun x hx =>
    ⟨by positivity, (div_lt_one (by linarith)).2 (by linarith)⟩
  have c0 := (betaI_continuousOn ha hb 0 (by simp)).tendsto
  have c1 := (betaI_continuousOn ha hb 1 (by simp)).tendsto
  have h := half_density (a := 0) (G := fun x => betaI (x / (1 + x)) a b)
    (g := fun x => x ^ (a - 1) * (1 + x) ^ (-a - b) / Beta a b) (fun x hx => ?_) (fun x hx => by positivity) ?_ ?_
  · exact h
  · have h1 : 0 < 1 + x := by linarith
    have d1 : HasDerivAt (fun x : ℝ => x / (1 + x)) (1 / (1 + x) ^ 2) x := by
      have := (hasDerivAt_id x).div ((hasDerivAt_id x).const_add 1) h1.ne'
      refine HasDerivAt.congr_deriv (f := fun u => u / (1 + u)) this ?_
      show (1 * (1 + x) - x * 1) / (1 + x) ^ 2 = _
      congr 1; ring
    have := (betaI_hasDerivAt ha hb (hin x hx)).comp x d1
    refine HasDerivAt.congr_deriv (f := fun x => betaI (x / (1 + x)) a b) this ?_
    have e : 1 - x / (1 + x) = (1 + x)⁻¹ := by field_simp; ring
    rw [betaW, e, div_rpow hx.le h1.le, inv_rpow h1.le, ← rpow_neg h1.le,
      show (1:ℝ) / (1 + x) ^ 2 = (1 + x) ^ (-2 : ℝ) by rw [rpow_neg h1.le, one_div]; norm_cast]
    have e2 : (1 + x) ^ (-a - b) = ((1 + x) ^ (a - 1))⁻¹ * (1 + x) ^ (-(b - 1)) * (1 + x) ^ (-2:ℝ) := by
      rw [← rpow_neg h1.le, ← rpow_add h1, ← rpow_add h1]; congr 1; ring
    rw [e2]; ring
  · simp only [betaI_zero] at c0
    refine c0.comp (tendsto_nhdsWithin_iff.2 ⟨?_, ?_⟩)
    · have : ContinuousAt (fun x : ℝ => x / (1 + x)) 0 := continuousAt_id.div (continuousAt_const.add continuousAt_id) (by norm_num)
      have := this.tendsto.mono_left (nhdsWithin_le_nhds (s := Ioi 0))
      simpa using this
    · filter_upwards [self_mem_nhdsWithin] with x hx
      exact Ioo_subset_Icc_self (hin x hx)
  · simp only [betaI_one ha hb] at c1
    refine c1.comp (tendsto_nhdsWithin_iff.2 ⟨?_, ?_⟩)
    · have t : Tendsto (fun x : ℝ => 1 - (1 + x)⁻¹) atTop (𝓝 (1 - 0)) :=
        tendsto_const_nhds.sub (tendsto_inv_atTop_zero.comp (tendsto_atTop_add_const_left _ _ tendsto_id))
      rw [sub_zero] at t
      refine t.congr' ?_
      filter_upwards [eventually_gt_atTop 0] with x hx
      field_simp; ring
    · filter_upwards [eventually_gt_atTop 0] with x hx
      exact Ioo_subset_Icc_self (hin x hx)

theorem bp_pow {a b u : ℝ} (n : ℕ) (hu : u ∈ Ioo (0:ℝ) 1) :
    u ^ (n:ℝ) * (1 - u) ^ (-(n:ℝ)) * betaW a b u = (u / (1 - u) - 0) ^ n * betaW a b u := by
  have h1 : 0 < 1 - u := by linarith [hu.2]
  rw [rpow_neg h1.le, rpow_natCast, rpow_natCast, sub_zero, div_pow, div_eq_mul_inv]

theorem bp_raw {a b : ℝ} (ha : 0 < a) {n : ℕ} (hb : (n:ℝ) < b) :
    HasCentral (betaPrimePDF a b) 0 n (Beta (a + n) (b - n) / Beta a b) := by
  have h := beta_exp (a := a) (b := b) (p := n) (q := -n) (by positivity) (by linarith)
  unfold HasCentral
  obtain ⟨h1, h2⟩ := bp_transfer (a := a) (b := b) (fun x => (x - 0) ^ n)
  rw [h1, h2, ← setIntegral_congr_fun measurableSet_Ioo (fun u hu => bp_pow n hu), h.2, ← sub_eq_add_neg]
  exact ⟨h.1.congr_fun (fun u hu => bp_pow n hu) measurableSet_Ioo, rfl⟩

theorem Beta_shift {a b : ℝ} (ha : 0 < a) (hb : 0 < b) : Beta (a + 1) b = a / b * Beta a (b + 1) := by
  rw [Beta_succ ha hb, Beta_succ' ha hb]
  have : a + b ≠ 0 := by linarith
  field_simp

theorem bp_raw_infinite {a b : ℝ} (ha : 0 < a) (hb0 : 0 < b) {n : ℕ} (hb : b ≤ n) (v : ℝ) : ¬ HasCentral (betaPrimePDF a b) 0 n v := by
  rintro ⟨hi, _⟩
  obtain ⟨h1, _⟩ := bp_transfer (a := a) (b := b) (fun x => (x - 0) ^ n)
  have hB := Beta_pos ha hb0
  have h2 := IntegrableOn.congr_fun (h1.1 hi) (fun u hu => (bp_pow n hu).symm) measurableSet_Ioo
  have h3 := Integrable.const_mul h2 (Beta a b)
  have h4 : IntegrableOn (fun u : ℝ => (fun w : ℝ => w ^ (b - n - 1) * (1 - w) ^ (a + n - 1)) (1 - u)) (Ioo 0 1) := by
    refine IntegrableOn.congr_fun h3 (fun u hu => ?_) measurableSet_Ioo
    have h1 : 0 < 1 - u := by linarith [hu.2]
    simp only
    rw [sub_sub_cancel, betaW, show b - n - 1 = -(n:ℝ) + (b - 1) by ring, show a + n - 1 = (n:ℝ) + (a - 1) by ring,
      rpow_add h1, rpow_add hu.1]
    field_simp
  exact beta_kernel_not_integrable (by linarith) ((unit_reflect _).1.1 h4)

/-- differential entropy of the Beta prime law -/
theorem bp_entropy {a b : ℝ} (ha : 0 < a) (hb : 0 < b) :
    HasEntropy (betaPrimePDF a b)
      (Real.log (Beta a b) - (a - 1) * digamma a - (b + 1) * digamma b + (a + b) * digamma (a + b)) := by
  have hB := Beta_pos ha hb
  obtain ⟨l1, l2, l0⟩ := beta_exp_log ha hb
  obtain ⟨h1, h2⟩ := bp_transfer (a := a) (b := b) (fun x => Real.log (betaPrimePDF a b x))
  have e : ∀ u ∈ Ioo (0:ℝ) 1,
      (a - 1) * (Real.log u * betaW a b u) + (b + 1) * (Real.log (1 - u) * betaW a b u) - Real.log (Beta a b) * betaW a b u =
      Real.log (betaPrimePDF a b (u / (1 - u))) * betaW a b u := fun u hu => by
    have h0 := hu.1
    have h1 : 0 < 1 - u := by linarith [hu.2]
    have e : 1 + u / (1 - u) = (1 - u)⁻¹ := by field_simp; ring
    rw [betaPrimePDF, if_neg (not_le.2 (by positivity)), e, Real.log_div (by positivity) hB.ne',
      Real.log_mul (by positivity) (by positivity), Real.log_rpow (by positivity), Real.log_rpow (by positivity), Real.log_inv,
      Real.log_div h0.ne' h1.ne']
    ring
  have j1 := Integrable.const_mul l1.1 (a - 1)
  have j2 := Integrable.const_mul l2.1 (b + 1)
  have j3 := Integrable.const_mul l0.1 (Real.log (Beta a b))
  have j12 : Integrable (fun u : ℝ => (a - 1) * (Real.log u * betaW a b u) + (b + 1) * (Real.log (1 - u) * betaW a b u))
    (volume.restrict (Ioo 0 1)) := j1.add j2
  have hi := h1.2 (IntegrableOn.congr_fun (j12.sub j3) e measurableSet_Ioo)
  have hv := h2
  rw [← setIntegral_congr_fun measurableSet_Ioo e, integral_sub j12 j3, integral_add j1 j2, integral_const_mul,
    integral_const_mul, integral_const_mul, l0.2, l1.2, l2.2] at hv
  refine ⟨hi.congr (Eventually.of_forall fun x => mul_comm _ _), ?_⟩
  rw [show (fun x => betaPrimePDF a b x * Real.log (betaPrimePDF a b x)) =
    fun x => Real.log (betaPrimePDF a b x) * betaPrimePDF a b x from funext fun x => mul_comm _ _, hv]
  ring

end Rstat.Spec
