import Verif.Model.Dist.Degenerate
import Verif.Lemmas.DistBase

/-! Properties C56, C106: the degenerate (point-mass) laws on f64 and on i64. -/
set_option linter.unusedSectionVars false
namespace Rstat
open F64 Spec MeasureTheory ProbabilityTheory Set

section
variable [FP] [FP.Exact] {k : F64} {c : ℝ}

/-- C56 (f64): construction never fails; `cdf` is the distribution function of the point mass at `k`, for every `x`
(including infinities); `sample` always returns `k` and leaves the generator alone; mean, median and mode are `k`,
variance and entropy 0. -/
theorem C56_degenerate_real (hk : k.Is c) :
    Computes (fun x => ((DegenerateF.new k).cdf x).val) (fun x => if x < c then 0 else 1) univ ∧
    (∀ x, (if x < c then (0 : ℝ) else 1) = ProbabilityTheory.cdf (Measure.dirac c) x) ∧
    ((DegenerateF.new k).cdf pinf = Probability.one ∧ (DegenerateF.new k).cdf ninf = Probability.zero) ∧
    (∀ x, ((DegenerateF.new k).cdf x).isValid) ∧
    (∀ (σ : Type) (s : σ), (DegenerateF.new k).sample s = (k, s)) ∧
    (DegenerateF.new k).mean.Is (∫ x, x ∂(Measure.dirac c)) ∧
    (DegenerateF.new k).variance.Is (∫ x, (x - c) ^ 2 ∂(Measure.dirac c)) ∧
    ((DegenerateF.new k).median = k ∧ (DegenerateF.new k).modes = [k]) ∧
    (DegenerateF.new k).shannonEntropy.Is 0 := by
  refine ⟨fun x t _ hx => ?_, fun x => ?_, ⟨?_, ?_⟩, fun x => ?_, fun _ _ => rfl, ?_, ?_, ⟨rfl, rfl⟩, Is.zero⟩
  · by_cases h : t < c
    · have e : (DegenerateF.new k).cdf x = Probability.zero := if_pos ((hx.lt_iff hk).2 h)
      simp only [e, if_pos h]; exact Is.zero
    · have e : (DegenerateF.new k).cdf x = Probability.one := if_neg fun h' => h ((hx.lt_iff hk).1 h')
      simp only [e, if_neg h]; exact Is.one
  · rw [ProbabilityTheory.cdf_eq_real, Measure.real, Measure.dirac_apply' _ measurableSet_Iic]
    by_cases h : x < c
    · rw [if_pos h, indicator_of_notMem (by simpa using h)]; simp
    · rw [if_neg h, indicator_of_mem (by simpa using h)]; simp
  · exact if_neg not_pinf_lt
  · exact if_pos (ninf_lt hk)
  · unfold DegenerateF.cdf
    split_ifs
    · exact ⟨(Is.zero.le_iff Is.one).2 zero_le_one, (Is.zero.le_iff Is.zero).2 le_rfl⟩
    · exact ⟨(Is.one.le_iff Is.one).2 le_rfl, (Is.zero.le_iff Is.one).2 zero_le_one⟩
  · rw [integral_dirac]; exact hk
  · rw [integral_dirac, sub_self, zero_pow two_ne_zero]; exact Is.zero

/-- C56 (f64), cumulative function at every pair of points: 0 strictly below `k`, 1 at and above. -/
theorem C56_degenerate_step (k x : F64) :
    (x < k → (DegenerateF.new k).cdf x = Probability.zero) ∧ (k ≤ x → (DegenerateF.new k).cdf x = Probability.one) := by
  refine ⟨fun h => if_pos h, fun h => if_neg fun h' => ?_⟩
  obtain ⟨u, v, hu, hv, huv⟩ := h
  obtain ⟨u', v', hu', hv', huv'⟩ := h'
  simp only [DegenerateF.new] at hv'
  rw [hv] at hu'; rw [hu] at hv'; cases hu'; cases hv'
  exact absurd huv (not_le.2 huv')

/-- C56 (i64): the mass function is the point mass at `k`, the distribution function its running sum. -/
theorem C56_degenerate_int (k : ℤ) :
    (∀ x, ((DegenerateI.new k).pmf x).val.Is (if x = k then 1 else 0)) ∧
    IsPMF (fun x : ℤ => if x = k then (1 : ℝ) else 0) ∧
    (∀ x, ((DegenerateI.new k).cdf x).val.Is (if x < k then 0 else 1)) ∧
    IsCDFOfPMF (fun x : ℤ => if x = k then (1 : ℝ) else 0) (fun x => if x < k then 0 else 1) ∧
    (∃ m v, (DegenerateI.new k).mean.Is m ∧ (DegenerateI.new k).variance.Is v ∧
      HasMeanVarD (fun x : ℤ => if x = k then (1 : ℝ) else 0) (fun x => (x : ℝ)) m v) ∧
    (∀ (σ : Type) (s : σ), (DegenerateI.new k).sample s = (k, s)) ∧
    (DegenerateI.new k).median.Is k ∧ (DegenerateI.new k).modes = [k] ∧
    (∃ h, (DegenerateI.new k).shannonEntropy.Is h ∧ HasEntropyD (fun x : ℤ => if x = k then (1 : ℝ) else 0) h) := by
  have hs : ∀ g : ℤ → ℝ, HasSum (fun x => g x * if x = k then (1 : ℝ) else 0) (g k) := fun g => by
    have := hasSum_ite_eq k (g k)
    refine hasSum_congr2 this (fun x => ?_) rfl
    by_cases h : x = k
    · subst h; simp
    · simp [h]
  refine ⟨fun x => ?_, ⟨fun x => by dsimp only; split_ifs <;> norm_num, hasSum_ite_eq k 1⟩, fun x => ?_, fun x => ?_,
    ⟨k, 0, Is.ofInt k, Is.zero, hs _, ?_⟩, fun _ _ => rfl, Is.ofInt k, rfl, ⟨0, Is.zero, ?_⟩⟩
  · by_cases h : x = k
    · have e : (DegenerateI.new k).pmf x = Probability.one := if_pos h
      rw [e, if_pos h]; exact Is.one
    · have e : (DegenerateI.new k).pmf x = Probability.zero := if_neg h
      rw [e, if_neg h]; exact Is.zero
  · by_cases h : x < k
    · have e : (DegenerateI.new k).cdf x = Probability.zero := if_pos h
      rw [e, if_pos h]; exact Is.zero
    · have e : (DegenerateI.new k).cdf x = Probability.one := if_neg h
      rw [e, if_neg h]; exact Is.one
  · refine (hasSum_subtype_iff_indicator (f := fun x : ℤ => if x = k then (1 : ℝ) else 0) (s := Set.Iic x)).2 ?_
    by_cases h : x < k
    · simp only [if_pos h]
      refine hasSum_congr2 (hasSum_zero (α := ℝ) (β := ℤ)) (fun y => ?_) rfl
      rw [indicator_apply]
      split_ifs with h1 h2
      · exact absurd (h2 ▸ h1 : k ∈ Set.Iic x) (not_le.2 h)
      · rfl
      · rfl
    · simp only [if_neg h]
      refine hasSum_congr2 (hasSum_ite_eq k (1 : ℝ)) (fun y => ?_) rfl
      rw [indicator_apply]
      by_cases h1 : y = k
      · subst h1; rw [if_pos (Set.mem_Iic.2 (not_lt.1 h))]
      · rw [if_neg h1]; simp
  · unfold HasCentralD
    refine hasSum_congr2 (hs fun x => ((x : ℝ) - k) ^ 2) (fun x => rfl) (by simp)
  · unfold HasEntropyD
    refine hasSum_congr2 (hasSum_zero (α := ℝ) (β := ℤ)) (fun y => ?_) rfl
    by_cases h : y = k <;> simp [h]

/-- C106 (violated): the f64 "density" of the point mass is not a density: it is the indicator of an interval of width `2e-7`
around `k`, with total mass `2e-7`, not 1 (a point mass has none). -/
theorem C106_degenerate_pdf_violated (hk : k.Is c) :
    Computes (DegenerateF.new k).pdf (fun x => if |x - c| < 1 / 10 ^ 7 then 1 else 0) univ ∧
    ∫ x : ℝ, (if |x - c| < 1 / 10 ^ 7 then (1 : ℝ) else 0) = 2 / 10 ^ 7 ∧
    ∀ F, ¬ IsDensityOf (fun x : ℝ => if |x - c| < 1 / 10 ^ 7 then (1 : ℝ) else 0) F := by
  have hi : ∫ x : ℝ, (if |x - c| < 1 / 10 ^ 7 then (1 : ℝ) else 0) = 2 / 10 ^ 7 := by
    have e : (fun x : ℝ => if |x - c| < 1 / 10 ^ 7 then (1 : ℝ) else 0) =
        (Ioo (c - 1 / 10 ^ 7) (c + 1 / 10 ^ 7)).indicator fun _ => 1 := by
      ext x
      rw [indicator_apply]
      refine if_congr ?_ rfl rfl
      rw [abs_lt, mem_Ioo]
      constructor <;> rintro ⟨h1, h2⟩ <;> constructor <;> linarith
    rw [e, integral_indicator measurableSet_Ioo, integral_const]
    simp only [Measure.restrict_apply MeasurableSet.univ, univ_inter, smul_eq_mul, mul_one, Measure.real, Real.volume_Ioo]
    rw [ENNReal.toReal_ofReal (by norm_num; )]; ring
  refine ⟨fun x t _ hx => ?_, hi, fun F hF => ?_⟩
  · have hl := ((hx.sub hk).abs).lt_iff (Is.lit (1 / 10 ^ 7))
    by_cases h : |t - c| < 1 / 10 ^ 7
    · have e : (DegenerateF.new k).pdf x = 1 := if_pos (hl.2 h)
      simp only [e, if_pos h]; exact Is.one
    · have e : (DegenerateF.new k).pdf x = 0 := if_neg fun h' => h (hl.1 h')
      simp only [e, if_neg h]; exact Is.zero
  · have := hF.total
    rw [hi] at this; norm_num at this

end

section
attribute [local instance] exactFP exactFP_exact
example : ((DegenerateF.new (fin 3)).cdf (fin 2)).val.Is 0 ∧ ((DegenerateF.new (fin 3)).cdf (fin 3)).val.Is 1 := by
  have h := (C56_degenerate_real (k := fin 3) (c := 3) (Is.fin 3)).1
  refine ⟨?_, ?_⟩
  · have := h (fin 2) 2 (mem_univ _) (Is.fin 2); norm_num at this; exact this
  · have := h (fin 3) 3 (mem_univ _) (Is.fin 3); norm_num at this; exact this
end
end Rstat
