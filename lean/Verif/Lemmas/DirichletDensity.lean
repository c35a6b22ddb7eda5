import Verif.Lemmas.Dirichlet
import Mathlib.MeasureTheory.Measure.Lebesgue.EqHaar

/-! The density of the Dirichlet law with respect to Lebesgue measure on all coordinates but the first. -/
namespace Rstat.Spec
open MeasureTheory ProbabilityTheory Set Filter

theorem lintegral_pi_succ {n : ℕ} (μ : Fin (n + 1) → Measure ℝ) [∀ i, SigmaFinite (μ i)] (F : (Fin (n + 1) → ℝ) → ENNReal)
    (hF : Measurable F) :
    ∫⁻ x, F x ∂(Measure.pi μ) = ∫⁻ p : ℝ × (Fin n → ℝ), F (Fin.cons p.1 p.2) ∂((μ 0).prod (Measure.pi fun j => μ j.succ)) := by
  have h := (measurePreserving_piFinSuccAbove μ 0).symm
  rw [← h.lintegral_comp hF]
  simp only [Fin.zero_succAbove]
  refine lintegral_congr fun p => ?_
  congr 1
  funext i
  refine Fin.cases ?_ (fun j => ?_) i <;> simp [MeasurableEquiv.piFinSuccAbove_symm_apply, Fin.insertNthEquiv]

theorem lintegral_pi_prod' : ∀ {n : ℕ} (μ : Fin n → Measure ℝ) [∀ i, SigmaFinite (μ i)] (f : Fin n → ℝ → ENNReal)
    (_ : ∀ i, Measurable (f i)), ∫⁻ x, ∏ i, f i (x i) ∂(Measure.pi μ) = ∏ i, ∫⁻ x, f i x ∂(μ i)
  | 0, μ, _, f, _ => by simp
  | n + 1, μ, _, f, hf => by
    rw [lintegral_pi_succ μ (fun x => ∏ i, f i (x i)) (Finset.measurable_prod _ fun i _ => (hf i).comp (measurable_pi_apply i))]
    simp only [Fin.prod_univ_succ, Fin.cons_zero, Fin.cons_succ]
    rw [lintegral_prod_mul (g := fun y : Fin n → ℝ => ∏ x, f x.succ (y x)) (hf 0).aemeasurable
      (Finset.measurable_prod _ fun i _ => (hf i.succ).comp (measurable_pi_apply i)).aemeasurable]
    rw [lintegral_pi_prod' (fun j => μ j.succ) (fun j => f j.succ) fun j => hf j.succ]

theorem pi_withDensity {n : ℕ} (f : Fin n → ℝ → ENNReal) (hf : ∀ i, Measurable (f i))
    [∀ i, SigmaFinite (volume.withDensity (f i))] :
    Measure.pi (fun i => (volume : Measure ℝ).withDensity (f i)) =
      (volume : Measure (Fin n → ℝ)).withDensity fun x => ∏ i, f i (x i) := by
  refine Measure.pi_eq fun s hs => ?_
  rw [withDensity_apply _ (MeasurableSet.univ_pi hs), ← lintegral_indicator (MeasurableSet.univ_pi hs)]
  have e : ∀ x : Fin n → ℝ, (univ.pi s).indicator (fun x => ∏ i, f i (x i)) x = ∏ i, (s i).indicator (f i) (x i) := fun x => by
    by_cases hx : x ∈ univ.pi s
    · rw [indicator_of_mem hx]
      exact Finset.prod_congr rfl fun i _ => (indicator_of_mem (hx i (mem_univ i)) _).symm
    · rw [indicator_of_notMem hx]
      have : ∃ i, x i ∉ s i := by by_contra h; push Not at h; exact hx fun i _ => h i
      obtain ⟨i, hi⟩ := this
      exact (Finset.prod_eq_zero (Finset.mem_univ i) (indicator_of_notMem hi _)).symm
  simp only [e]
  rw [show (volume : Measure (Fin n → ℝ)) = Measure.pi fun _ => volume from rfl,
    lintegral_pi_prod' _ _ fun i => (hf i).indicator (hs i)]
  refine Finset.prod_congr rfl fun i _ => ?_
  rw [withDensity_apply _ (hs i), lintegral_indicator (hs i)]

/-- Gamma density, zero off the open half line -/
noncomputable def gp (a x : ℝ) : ENNReal := if 0 < x then ENNReal.ofReal (x ^ (a - 1) * Real.exp (-x) / Real.Gamma a) else 0

theorem gp_measurable (a : ℝ) : Measurable (gp a) := Measurable.ite measurableSet_Ioi (by fun_prop) measurable_const

theorem gammaMeasure_gp (a : ℝ) : gammaMeasure a 1 = volume.withDensity (gp a) := by
  rw [gammaMeasure]
  refine withDensity_congr_ae ?_
  have h0 : ∀ᵐ x : ℝ, x ≠ 0 := by simp [ae_iff]
  filter_upwards [h0] with x hx
  rcases lt_or_gt_of_ne hx with hx | hx
  · rw [gammaPDF_of_neg hx, gp, if_neg (not_lt.2 hx.le)]
  · rw [gammaPDF_of_nonneg hx.le, gp, if_pos hx, Real.one_rpow, one_mul]
    congr 1; ring

theorem lintegral_smul {m : ℕ} {s : ℝ} (hs : 0 < s) (G : (Fin m → ℝ) → ENNReal) (hG : Measurable G) :
    ∫⁻ y, G y = ENNReal.ofReal (s ^ m) * ∫⁻ z, G (s • z) := by
  have h := Measure.map_addHaar_smul (volume : Measure (Fin m → ℝ)) hs.ne'
  have e : ∫⁻ z, G (s • z) = ENNReal.ofReal (|(s ^ m)⁻¹|) * ∫⁻ y, G y := by
    rw [← lintegral_map (f := G) (g := fun z => s • z) hG (by fun_prop), h, lintegral_smul_measure]
    simp
  have hsm : 0 < s ^ m := pow_pos hs m
  rw [e, ← mul_assoc, ← ENNReal.ofReal_mul hsm.le, abs_of_pos (inv_pos.2 hsm), mul_inv_cancel₀ hsm.ne', ENNReal.ofReal_one, one_mul]

section
variable {m : ℕ}

theorem simplexPoint_sum (y : Fin m → ℝ) : ∑ i, simplexPoint y i = 1 := by
  unfold simplexPoint; rw [Fin.sum_univ_succ]; simp

theorem simplexPoint_measurable : Measurable (simplexPoint (m := m)) := by
  refine measurable_pi_iff.2 fun i => ?_
  refine Fin.cases ?_ (fun j => ?_) i
  · simp only [simplexPoint, Fin.cons_zero]; fun_prop
  · simp only [simplexPoint, Fin.cons_succ]; fun_prop

theorem cons_measurable : Measurable (fun p : ℝ × (Fin m → ℝ) => (Fin.cons p.1 p.2 : Fin (m + 1) → ℝ)) := by
  refine measurable_pi_iff.2 fun i => ?_
  refine Fin.cases ?_ (fun j => ?_) i
  · simp only [Fin.cons_zero]; fun_prop
  · simp only [Fin.cons_succ]; fun_prop

theorem gp_prod_smul {a : Fin (m + 1) → ℝ} (ha : ∀ i, 0 < a i) {s : ℝ} (hs : 0 < s) (x : Fin (m + 1) → ℝ) (hx : ∑ i, x i = 1) :
    ENNReal.ofReal (s ^ m) * ∏ i, gp (a i) (s * x i) =
      ENNReal.ofReal (s ^ (∑ i, a i - 1) * Real.exp (-s) / Real.Gamma (∑ i, a i)) *
        (if ∀ i, 0 < x i then ENNReal.ofReal (dirichletPDF a x) else 0) := by
  split_ifs with hpos
  · have e : ∀ i, gp (a i) (s * x i) = ENNReal.ofReal ((s * x i) ^ (a i - 1) * Real.exp (-(s * x i)) / Real.Gamma (a i)) :=
      fun i => if_pos (mul_pos hs (hpos i))
    have hG : ∀ i, 0 < Real.Gamma (a i) := fun i => Real.Gamma_pos_of_pos (ha i)
    have hA : 0 < ∑ i, a i := Finset.sum_pos (fun i _ => ha i) ⟨0, Finset.mem_univ _⟩
    have hGA := Real.Gamma_pos_of_pos hA
    simp only [e]
    rw [← ENNReal.ofReal_prod_of_nonneg fun i _ => by have := hG i; have := hpos i; positivity, ← ENNReal.ofReal_mul (by positivity),
      ← ENNReal.ofReal_mul (by positivity)]
    congr 1
    have e2 : ∀ i, (s * x i) ^ (a i - 1) * Real.exp (-(s * x i)) / Real.Gamma (a i) =
        s ^ (a i - 1) * Real.exp (-(s * x i)) * (x i ^ (a i - 1) / Real.Gamma (a i)) := fun i => by
      rw [Real.mul_rpow hs.le (hpos i).le]; ring
    simp only [e2]
    rw [Finset.prod_mul_distrib, Finset.prod_mul_distrib, ← Real.rpow_sum_of_pos hs, ← Real.exp_sum, Finset.prod_div_distrib,
      Finset.sum_neg_distrib, ← Finset.mul_sum, hx, mul_one, Finset.sum_sub_distrib]
    simp only [Finset.sum_const, Finset.card_univ, Fintype.card_fin, nsmul_eq_mul, mul_one]
    rw [show (∑ i, a i - 1 : ℝ) = (m : ℝ) + (∑ i, a i - ((m + 1 : ℕ) : ℝ)) by push_cast; ring, Real.rpow_add hs, Real.rpow_natCast,
      dirichletPDF]
    have : (∏ i, Real.Gamma (a i)) ≠ 0 := (Finset.prod_pos fun i _ => hG i).ne'
    field_simp
  · push Not at hpos
    obtain ⟨i, hi⟩ := hpos
    rw [Finset.prod_eq_zero (f := fun i => gp (a i) (s * x i)) (Finset.mem_univ i) (if_neg (not_lt.2 (mul_nonpos_of_nonneg_of_nonpos hs.le hi)))]
    simp

theorem gamma_total {A : ℝ} (hA : 0 < A) :
    ∫⁻ s in Ioi (0:ℝ), ENNReal.ofReal (s ^ (A - 1) * Real.exp (-s) / Real.Gamma A) = 1 := by
  have h := (isProbabilityMeasure_gammaMeasure hA one_pos).measure_univ
  rw [gammaMeasure_gp, withDensity_apply _ MeasurableSet.univ, Measure.restrict_univ] at h
  rw [← h, ← lintegral_indicator measurableSet_Ioi]
  refine lintegral_congr fun s => ?_
  by_cases hs : 0 < s
  · rw [indicator_of_mem (show s ∈ Ioi (0:ℝ) from hs), gp, if_pos hs]
  · rw [indicator_of_notMem (show s ∉ Ioi (0:ℝ) from hs), gp, if_neg hs]

/-- integration over the total and all coordinates but the first -/
theorem lintegral_by_total (F : (Fin (m + 1) → ℝ) → ENNReal) (hF : Measurable F) :
    (∫⁻ g, F g = ∫⁻ s : ℝ, ∫⁻ y : Fin m → ℝ, F (Fin.cons (s - ∑ i, y i) y)) ∧
    ∀ s : ℝ, Measurable fun y : Fin m → ℝ => F (Fin.cons (s - ∑ i, y i) y) := by
  have hFc : Measurable fun p : ℝ × (Fin m → ℝ) => F (Fin.cons p.1 p.2) := hF.comp cons_measurable
  have hFs : Measurable fun p : (Fin m → ℝ) × ℝ => F (Fin.cons (p.2 - ∑ i, p.1 i) p.1) := by
    have : Measurable fun p : (Fin m → ℝ) × ℝ => (p.2 - ∑ i, p.1 i, p.1) := by fun_prop
    exact hFc.comp this
  constructor
  · rw [show (volume : Measure (Fin (m + 1) → ℝ)) = Measure.pi fun _ => volume from rfl, lintegral_pi_succ _ _ hF]
    rw [lintegral_prod_symm _ hFc.aemeasurable]
    have hshift : ∀ y : Fin m → ℝ, ∫⁻ g0 : ℝ, F (Fin.cons g0 y) = ∫⁻ s : ℝ, F (Fin.cons (s - ∑ i, y i) y) := fun y =>
      (lintegral_sub_right_eq_self (fun s => F (Fin.cons s y)) (∑ i, y i)).symm
    simp only [hshift]
    rw [lintegral_lintegral_swap (f := fun (y : Fin m → ℝ) (s : ℝ) => F (Fin.cons (s - ∑ i, y i) y)) hFs.aemeasurable]
    rfl
  · intro s
    have : Measurable fun y : Fin m → ℝ => (y, s) := by fun_prop
    exact hFs.comp this

/-- The Dirichlet law has density `dirichletPDF` in the coordinates after the first: for every measurable `h ≥ 0`, its expectation is the
integral of `h · dirichletPDF` over the open simplex. -/
theorem dirichlet_density {a : Fin (m + 1) → ℝ} (ha : ∀ i, 0 < a i) (h : (Fin (m + 1) → ℝ) → ENNReal) (hh : Measurable h) :
    ∫⁻ x, h x ∂(dirichletLaw a) =
      ∫⁻ y : Fin m → ℝ, (if ∀ i, 0 < simplexPoint y i then ENNReal.ofReal (dirichletPDF a (simplexPoint y)) else 0) *
        h (simplexPoint y) := by
  have : ∀ i, IsProbabilityMeasure (gammaMeasure (a i) 1) := fun i => isProbabilityMeasure_gammaMeasure (ha i) one_pos
  have hpm : ∀ i, IsProbabilityMeasure (volume.withDensity (gp (a i))) := fun i => by rw [← gammaMeasure_gp]; infer_instance
  have hA : 0 < ∑ i, a i := Finset.sum_pos (fun i _ => ha i) ⟨0, Finset.mem_univ _⟩
  have hnorm : Measurable fun (g : Fin (m + 1) → ℝ) i => g i / ∑ j, g j := by fun_prop
  have hgp : Measurable fun g : Fin (m + 1) → ℝ => ∏ i, gp (a i) (g i) :=
    Finset.measurable_prod _ fun i _ => (gp_measurable (a i)).comp (measurable_pi_apply i)
  have hprod : Measurable fun g : Fin (m + 1) → ℝ => (∏ i, gp (a i) (g i)) * h (fun i => g i / ∑ j, g j) := hgp.mul (hh.comp hnorm)
  have hpi : (Measure.pi fun i => gammaMeasure (a i) 1) = (volume : Measure (Fin (m + 1) → ℝ)).withDensity fun g => ∏ i, gp (a i) (g i) := by
    simp only [gammaMeasure_gp]
    exact pi_withDensity _ fun i => gp_measurable (a i)
  rw [dirichletLaw, lintegral_map hh hnorm, hpi, lintegral_withDensity_eq_lintegral_mul _ hgp (g := fun g => h fun i => g i / ∑ j, g j) (hh.comp hnorm)]
  simp only [Pi.mul_apply]
  set F : (Fin (m + 1) → ℝ) → ENNReal := fun g => (∏ i, gp (a i) (g i)) * h (fun i => g i / ∑ j, g j) with hF
  obtain ⟨t1, t2⟩ := lintegral_by_total F hprod
  rw [t1]
  have hin : ∀ s : ℝ, ∫⁻ y : Fin m → ℝ, F (Fin.cons (s - ∑ i, y i) y) = (Ioi (0:ℝ)).indicator (fun s =>
      ENNReal.ofReal (s ^ (∑ i, a i - 1) * Real.exp (-s) / Real.Gamma (∑ i, a i)) *
      ∫⁻ y : Fin m → ℝ, (if ∀ i, 0 < simplexPoint y i then ENNReal.ofReal (dirichletPDF a (simplexPoint y)) else 0) * h (simplexPoint y)) s := by
    intro s
    by_cases hs : 0 < s
    · rw [indicator_of_mem (show s ∈ Ioi (0:ℝ) from hs), lintegral_smul hs (fun y => F (Fin.cons (s - ∑ i, y i) y)) (t2 s),
        ← lintegral_const_mul' _ _ ENNReal.ofReal_ne_top, ← lintegral_const_mul' _ _ ENNReal.ofReal_ne_top]
      refine lintegral_congr fun z => ?_
      have e1 : (Fin.cons (s - ∑ i, (s • z) i) (s • z) : Fin (m + 1) → ℝ) = fun i => s * simplexPoint z i := by
        funext i
        refine Fin.cases ?_ (fun j => ?_) i
        · simp only [Fin.cons_zero, simplexPoint, Pi.smul_apply, smul_eq_mul, ← Finset.mul_sum]; ring
        · simp only [Fin.cons_succ, simplexPoint, Pi.smul_apply, smul_eq_mul]
      rw [e1, hF]
      dsimp only
      have e2 : (fun i => s * simplexPoint z i / ∑ j, s * simplexPoint z j) = simplexPoint z := by
        funext i
        rw [← Finset.mul_sum, simplexPoint_sum, mul_one, mul_div_cancel_left₀ _ hs.ne']
      rw [e2, ← mul_assoc, ← mul_assoc, gp_prod_smul ha hs _ (simplexPoint_sum z)]
    · rw [indicator_of_notMem (show s ∉ Ioi (0:ℝ) from hs)]
      have : ∀ y : Fin m → ℝ, F (Fin.cons (s - ∑ i, y i) y) = 0 := fun y => by
        have hsum : ∑ i, (Fin.cons (s - ∑ i, y i) y : Fin (m + 1) → ℝ) i = s := by rw [Fin.sum_univ_succ]; simp
        have : ∃ i, (Fin.cons (s - ∑ i, y i) y : Fin (m + 1) → ℝ) i ≤ 0 := by
          by_contra hc
          push Not at hc
          exact hs (hsum ▸ Finset.sum_pos (fun i _ => hc i) ⟨0, Finset.mem_univ _⟩)
        obtain ⟨i, hi⟩ := this
        rw [hF]
        dsimp only
        rw [Finset.prod_eq_zero (Finset.mem_univ i) (if_neg (not_lt.2 hi)), zero_mul]
      simp only [this, lintegral_zero]
  rw [lintegral_congr hin, lintegral_indicator measurableSet_Ioi, lintegral_mul_const _ (by fun_prop), gamma_total hA, one_mul]
end
end Rstat.Spec
