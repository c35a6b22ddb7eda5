import Verif.Lemmas.DirichletDensity
import Mathlib.Analysis.MeanInequalities

/-! First and second moments of the Dirichlet law, its mode, and the total of independent Gamma variates. -/
namespace Rstat.Spec
open MeasureTheory ProbabilityTheory Set Filter

theorem integrable_of_lintegral {Ω : Type*} [MeasurableSpace Ω] {μ : Measure Ω} {f : Ω → ℝ} (hm : AEStronglyMeasurable f μ)
    (h0 : 0 ≤ᵐ[μ] f) {c : ℝ} (hc : 0 ≤ c) (h : ∫⁻ x, ENNReal.ofReal (f x) ∂μ = ENNReal.ofReal c) :
    Integrable f μ ∧ ∫ x, f x ∂μ = c := by
  refine ⟨⟨hm, ?_⟩, ?_⟩
  · rw [hasFiniteIntegral_iff_ofReal h0, h]; exact ENNReal.ofReal_lt_top
  · rw [integral_eq_lintegral_of_nonneg_ae h0 hm, h, ENNReal.toReal_ofReal hc]

section
variable {m : ℕ} {a : Fin (m + 1) → ℝ}

theorem norm_measurable : Measurable fun (g : Fin (m + 1) → ℝ) i => g i / ∑ j, g j := by fun_prop

theorem dirichletLaw_prob (ha : ∀ i, 0 < a i) : IsProbabilityMeasure (dirichletLaw a) := by
  have : ∀ i, IsProbabilityMeasure (gammaMeasure (a i) 1) := fun i => isProbabilityMeasure_gammaMeasure (ha i) one_pos
  exact Measure.isProbabilityMeasure_map norm_measurable.aemeasurable

/-- almost every point is in the open simplex -/
theorem dirichlet_ae (ha : ∀ i, 0 < a i) : ∀ᵐ x ∂(dirichletLaw a), (∀ i, 0 < x i) ∧ ∑ i, x i = 1 := by
  unfold dirichletLaw
  rw [ae_map_iff norm_measurable.aemeasurable]
  · filter_upwards [pi_gamma_ae_pos ha] with g hg
    have hS : 0 < ∑ j, g j := Finset.sum_pos (fun i _ => hg i) ⟨0, Finset.mem_univ _⟩
    exact ⟨fun i => div_pos (hg i) hS, by rw [← Finset.sum_div, div_self hS.ne']⟩
  · have e : {x : Fin (m + 1) → ℝ | (∀ i, 0 < x i) ∧ ∑ i, x i = 1} = (⋂ i, {x | 0 < x i}) ∩ {x | ∑ i, x i = 1} := by ext x; simp
    rw [e]
    exact MeasurableSet.inter (MeasurableSet.iInter fun i => measurableSet_lt measurable_const (measurable_pi_apply i))
      (measurableSet_eq_fun (by fun_prop) measurable_const)

/-- all mixed moments of the Dirichlet law -/
theorem dirichlet_moment (ha : ∀ i, 0 < a i) {k : Fin (m + 1) → ℝ} (hk : ∀ i, 0 ≤ k i) (hK : 0 < ∑ i, k i) :
    Integrable (fun x => ∏ i, x i ^ k i) (dirichletLaw a) ∧ ∫ x, ∏ i, x i ^ k i ∂(dirichletLaw a) =
      Real.Gamma (∑ i, a i) / Real.Gamma (∑ i, a i + ∑ i, k i) * ∏ i, Real.Gamma (a i + k i) / Real.Gamma (a i) := by
  have hm : Measurable fun x : Fin (m + 1) → ℝ => ∏ i, x i ^ k i := by fun_prop
  have hA : 0 < ∑ i, a i := Finset.sum_pos (fun i _ => ha i) ⟨0, Finset.mem_univ _⟩
  refine integrable_of_lintegral hm.aestronglyMeasurable ?_ ?_ ?_
  · filter_upwards [dirichlet_ae ha] with x hx
    exact Finset.prod_nonneg fun i _ => Real.rpow_nonneg (hx.1 i).le _
  · refine mul_nonneg (div_nonneg (Real.Gamma_nonneg_of_nonneg hA.le) (Real.Gamma_nonneg_of_nonneg (by linarith))) ?_
    exact Finset.prod_nonneg fun i _ => div_nonneg (Real.Gamma_nonneg_of_nonneg (by linarith [ha i, hk i])) (Real.Gamma_nonneg_of_nonneg (ha i).le)
  · rw [← dirichlet_mixed ha hk hK, dirichletLaw, lintegral_map (by fun_prop) norm_measurable]

theorem dirichlet_mean (ha : ∀ i, 0 < a i) (i : Fin (m + 1)) :
    Integrable (fun x => x i) (dirichletLaw a) ∧ ∫ x, x i ∂(dirichletLaw a) = a i / ∑ j, a j := by
  have hA : 0 < ∑ i, a i := Finset.sum_pos (fun i _ => ha i) ⟨0, Finset.mem_univ _⟩
  have hs : ∑ j, (Pi.single i (1:ℝ) : Fin (m + 1) → ℝ) j = 1 := by simp
  have h := dirichlet_moment ha (k := Pi.single i 1) (fun j => by by_cases h : j = i <;> simp [h]) (by rw [hs]; exact one_pos)
  have e : (fun x : Fin (m + 1) → ℝ => ∏ j, x j ^ (Pi.single i (1:ℝ) : Fin (m + 1) → ℝ) j) = fun x => x i := by
    funext x
    rw [Finset.prod_eq_single i (fun j _ hj => by simp [hj]) (by simp)]; simp
  rw [e, hs] at h
  refine ⟨h.1, ?_⟩
  rw [h.2, Finset.prod_eq_single i (fun j _ hj => by simp [hj, (Real.Gamma_pos_of_pos (ha j)).ne']) (by simp)]
  have h1 := Real.Gamma_pos_of_pos hA
  have h2 := Real.Gamma_pos_of_pos (ha i)
  have h3 := ha i
  rw [Pi.single_eq_same, Real.Gamma_add_one hA.ne', Real.Gamma_add_one (ha i).ne']
  field_simp

theorem dirichlet_second (ha : ∀ i, 0 < a i) (i j : Fin (m + 1)) :
    Integrable (fun x => x i * x j) (dirichletLaw a) ∧ ∫ x, x i * x j ∂(dirichletLaw a) =
      (if i = j then a i * (a i + 1) else a i * a j) / ((∑ j, a j) * (∑ j, a j + 1)) := by
  have hA : 0 < ∑ i, a i := Finset.sum_pos (fun i _ => ha i) ⟨0, Finset.mem_univ _⟩
  have h1 := Real.Gamma_pos_of_pos hA
  have hk0 : ∀ l, 0 ≤ (Pi.single i 1 + Pi.single j 1 : Fin (m + 1) → ℝ) l := fun l => by
    rw [Pi.add_apply]
    refine add_nonneg ?_ ?_ <;> (rw [Pi.single_apply]; split_ifs <;> norm_num)
  have hs : ∑ l, (Pi.single i 1 + Pi.single j 1 : Fin (m + 1) → ℝ) l = 2 := by
    simp only [Pi.add_apply, Finset.sum_add_distrib]; simp; norm_num
  have h := dirichlet_moment ha (k := Pi.single i 1 + Pi.single j 1) hk0 (by rw [hs]; exact two_pos)
  have e : (fun x : Fin (m + 1) → ℝ => ∏ l, x l ^ (Pi.single i 1 + Pi.single j 1 : Fin (m + 1) → ℝ) l) =ᵐ[dirichletLaw a] fun x => x i * x j := by
    filter_upwards [dirichlet_ae ha] with x hx
    simp only [Pi.add_apply, Real.rpow_add (hx.1 _)]
    rw [Finset.prod_mul_distrib, Finset.prod_eq_single i (fun l _ hl => by simp [hl]) (by simp),
      Finset.prod_eq_single j (fun l _ hl => by simp [hl]) (by simp)]
    simp
  refine ⟨h.1.congr e, ?_⟩
  rw [← integral_congr_ae e, h.2, hs]
  have hG2 : Real.Gamma (∑ i, a i + 2) = (∑ i, a i + 1) * (∑ i, a i) * Real.Gamma (∑ i, a i) := by
    rw [show ∑ i, a i + 2 = (∑ i, a i + 1) + 1 by ring, Real.Gamma_add_one (by linarith), Real.Gamma_add_one hA.ne']; ring
  rw [hG2]
  have hone : ∀ l, a l ≠ 0 := fun l => (ha l).ne'
  have hGl : ∀ l, Real.Gamma (a l) ≠ 0 := fun l => (Real.Gamma_pos_of_pos (ha l)).ne'
  have hP : ∏ l, Real.Gamma (a l + (Pi.single i 1 + Pi.single j 1 : Fin (m + 1) → ℝ) l) / Real.Gamma (a l) =
      if i = j then a i * (a i + 1) else a i * a j := by
    by_cases hij : i = j
    · subst hij
      rw [if_pos rfl, Finset.prod_eq_single i (fun l _ hl => by simp [hl, hGl l]) (by simp)]
      have h3 := ha i
      rw [Pi.add_apply, Pi.single_eq_same, show a i + (1 + 1) = (a i + 1) + 1 by ring, Real.Gamma_add_one (by linarith),
        Real.Gamma_add_one h3.ne', ← mul_assoc, mul_div_cancel_right₀ _ (hGl i)]
      ring
    · rw [if_neg hij]
      have e3 : ∀ l, Real.Gamma (a l + (Pi.single i 1 + Pi.single j 1 : Fin (m + 1) → ℝ) l) / Real.Gamma (a l) =
          (if l = i then a i else 1) * (if l = j then a j else 1) := fun l => by
        by_cases hli : l = i
        · subst hli
          rw [if_pos rfl, if_neg hij, mul_one]
          rw [Pi.add_apply, Pi.single_eq_same, Pi.single_eq_of_ne hij, add_zero, Real.Gamma_add_one (hone l), mul_div_cancel_right₀ _ (hGl l)]
        · by_cases hlj : l = j
          · subst hlj
            rw [if_neg hli, if_pos rfl, one_mul]
            rw [Pi.add_apply, Pi.single_eq_same, Pi.single_eq_of_ne hli, zero_add, Real.Gamma_add_one (hone l), mul_div_cancel_right₀ _ (hGl l)]
          · rw [if_neg hli, if_neg hlj, mul_one, Pi.add_apply, Pi.single_eq_of_ne hli, Pi.single_eq_of_ne hlj, add_zero, add_zero, div_self (hGl l)]
      simp only [e3]
      rw [Finset.prod_mul_distrib]
      simp
  rw [hP]
  have : ∑ i, a i + 1 ≠ 0 := by linarith
  field_simp

theorem dirichlet_cov (ha : ∀ i, 0 < a i) (i j : Fin (m + 1)) :
    HasCovM (dirichletLaw a) (fun x => x i) (fun x => x j)
      ((if i = j then a i * (∑ j, a j - a i) else -(a i * a j)) / ((∑ j, a j) ^ 2 * (∑ j, a j + 1))) := by
  have := dirichletLaw_prob ha
  have hA : 0 < ∑ i, a i := Finset.sum_pos (fun i _ => ha i) ⟨0, Finset.mem_univ _⟩
  obtain ⟨i1, i2⟩ := dirichlet_mean ha i
  obtain ⟨j1, j2⟩ := dirichlet_mean ha j
  obtain ⟨s1, s2⟩ := dirichlet_second ha i j
  set A := ∑ j, a j with hAd
  have e : (fun x : Fin (m + 1) → ℝ => (x i - a i / A) * (x j - a j / A)) =
      fun x => x i * x j - a j / A * x i - a i / A * x j + a i / A * (a j / A) := by funext x; ring
  have I1 : Integrable (fun x => x i * x j - a j / A * x i) (dirichletLaw a) := s1.sub (i1.const_mul _)
  have I2 : Integrable (fun x => x i * x j - a j / A * x i - a i / A * x j) (dirichletLaw a) := I1.sub (j1.const_mul _)
  refine ⟨a i / A, a j / A, i1, j1, i2, j2, ?_, ?_⟩
  · rw [e]; exact I2.add (integrable_const _)
  · rw [e, integral_add I2 (integrable_const _), integral_sub I1 (j1.const_mul _), integral_sub s1 (i1.const_mul _), integral_const_mul,
      integral_const_mul, i2, j2, s2, integral_const]
    simp only [probReal_univ, one_smul]
    have : A + 1 ≠ 0 := by linarith
    split_ifs with hij
    · subst hij; field_simp; ring
    · field_simp; ring

/-- the total of independent Gamma variates takes any given value with probability zero -/
theorem gamma_total_null (ha : ∀ i, 0 < a i) (c : ℝ) :
    ∀ᵐ g ∂(Measure.pi fun i => gammaMeasure (a i) 1), ∑ i, g i ≠ c := by
  have : ∀ i, IsProbabilityMeasure (gammaMeasure (a i) 1) := fun i => isProbabilityMeasure_gammaMeasure (ha i) one_pos
  have hpm : ∀ i, IsProbabilityMeasure (volume.withDensity (gp (a i))) := fun i => by rw [← gammaMeasure_gp]; infer_instance
  have hpi : (Measure.pi fun i => gammaMeasure (a i) 1) = (volume : Measure (Fin (m + 1) → ℝ)).withDensity fun g => ∏ i, gp (a i) (g i) := by
    simp only [gammaMeasure_gp]
    exact pi_withDensity _ fun i => gp_measurable (a i)
  rw [hpi]
  refine withDensity_absolutelyContinuous _ _ ?_
  have hms : MeasurableSet {g : Fin (m + 1) → ℝ | ∑ i, g i = c} := measurableSet_eq_fun (by fun_prop) measurable_const
  have e : {g : Fin (m + 1) → ℝ | ¬ ∑ i, g i ≠ c} = {g | ∑ i, g i = c} := by ext g; simp
  show volume {g : Fin (m + 1) → ℝ | ¬ ∑ i, g i ≠ c} = 0
  have h0 : ∀ᵐ s : ℝ, s ≠ c := by simp [ae_iff]
  have hz : ∀ᵐ s : ℝ, ∫⁻ y : Fin m → ℝ, ({g : Fin (m + 1) → ℝ | ∑ i, g i = c}).indicator (fun _ => (1 : ENNReal)) (Fin.cons (s - ∑ i, y i) y) = 0 := by
    filter_upwards [h0] with s hs
    have : ∀ y : Fin m → ℝ, ({g : Fin (m + 1) → ℝ | ∑ i, g i = c}).indicator (fun _ => (1 : ENNReal)) (Fin.cons (s - ∑ i, y i) y) = 0 := fun y => by
      refine indicator_of_notMem ?_ _
      show ¬ ∑ i, (Fin.cons (s - ∑ i, y i) y : Fin (m + 1) → ℝ) i = c
      rw [Fin.sum_univ_succ]
      simpa using hs
    exact (lintegral_congr this).trans lintegral_zero
  rw [e]
  have e2 : volume {g : Fin (m + 1) → ℝ | ∑ i, g i = c} =
      ∫⁻ g, ({g : Fin (m + 1) → ℝ | ∑ i, g i = c}).indicator (fun _ => (1 : ENNReal)) g := (lintegral_indicator_one hms).symm
  rw [e2, (lintegral_by_total _ (measurable_const.indicator hms)).1, lintegral_congr_ae hz]
  exact lintegral_zero
end

/-- weighted AM-GM on the simplex -/
theorem simplex_prod_le {n : ℕ} {w y : Fin n → ℝ} (hw : ∀ i, 0 ≤ w i) (hW : 0 < ∑ i, w i) (hy : ∀ i, 0 ≤ y i) (h1 : ∑ i, y i = 1) :
    ∏ i, y i ^ w i ≤ ∏ i, (w i / ∑ j, w j) ^ w i := by
  set W := ∑ j, w j with hWd
  have hq : ∀ i, 0 ≤ w i / W := fun i => div_nonneg (hw i) hW.le
  have hz : ∀ i, 0 ≤ y i / (w i / W) := fun i => div_nonneg (hy i) (hq i)
  have h := Real.geom_mean_le_arith_mean_weighted Finset.univ (fun i => w i / W) (fun i => y i / (w i / W)) (fun i _ => hq i)
    (by rw [← Finset.sum_div, div_self hW.ne']) fun i _ => hz i
  have h2 : ∑ i, w i / W * (y i / (w i / W)) ≤ 1 := by
    rw [← h1]
    refine Finset.sum_le_sum fun i _ => ?_
    rcases (hq i).eq_or_lt with h0 | h0
    · rw [← h0, zero_mul]; exact hy i
    · rw [mul_div_cancel₀ _ h0.ne']
  have h3 : (∏ i, (y i / (w i / W)) ^ (w i / W)) ^ W ≤ 1 :=
    Real.rpow_le_one (Finset.prod_nonneg fun i _ => Real.rpow_nonneg (hz i) _) (h.trans h2) hW.le
  rw [← Real.finsetProd_rpow _ _ fun i _ => Real.rpow_nonneg (hz i) _] at h3
  have h4 : ∀ i, ((y i / (w i / W)) ^ (w i / W)) ^ W = y i ^ w i / (w i / W) ^ w i := fun i => by
    rw [← Real.rpow_mul (hz i), div_mul_cancel₀ _ hW.ne', Real.div_rpow (hy i) (hq i)]
  simp only [h4] at h3
  rw [Finset.prod_div_distrib, div_le_one] at h3
  · exact h3
  · refine Finset.prod_pos fun i _ => ?_
    rcases (hw i).eq_or_lt with h0 | h0
    · rw [← h0]; simp
    · exact Real.rpow_pos_of_pos (div_pos h0 hW) _
end Rstat.Spec
