import Verif.Model.Multi
import Verif.Spec.Multi
import Verif.Lemmas.MvGaussian
import Verif.Lemmas.DirichletDensity
import Mathlib.Probability.Distributions.Gaussian.Multivariate
import Mathlib.MeasureTheory.Integral.Pi

/-! Closed form of the covariance loop, and exponential moments of Gaussian vectors. -/
namespace Rstat
open Spec MeasureTheory ProbabilityTheory Matrix

namespace MvLogNormal
variable [FP] {n : ℕ}

/-- what the loop leaves in each entry -/
noncomputable def closed (mu : Fin n → F64) (S : Fin n → Fin n → F64) (i j : Fin n) : F64 :=
  (mu i + mu j + (S i i + (if j < i then (mu j + mu j + (S j j + S j j) / 2).exp * ((S j j).exp - 1) else S j j)) / 2).exp * ((S i j).exp - 1)

theorem row_fold (mu : Fin n → F64) (i : Fin n) : ∀ (l : List (Fin n)) (_ : ∀ j ∈ l, j ≠ i) (_ : l.Nodup) (C : Fin n → Fin n → F64),
    (l.map fun j => (i, j)).foldl (updateIndex mu) C =
      fun a b => if a = i ∧ b ∈ l then (mu i + mu b + (C i i + C b b) / 2).exp * ((C i b).exp - 1) else C a b
  | [], _, _, C => by funext a b; simp
  | j :: l, hl, nd, C => by
    have hj : j ≠ i := hl j (by simp)
    obtain ⟨hjl, nd'⟩ := List.nodup_cons.1 nd
    rw [List.map_cons, List.foldl_cons, row_fold mu i l (fun k hk => hl k (by simp [hk])) nd']
    funext a b
    by_cases ha : a = i
    · subst ha
      by_cases hb : b ∈ l
      · have hbj : b ≠ j := fun h => hjl (h ▸ hb)
        rw [if_pos ⟨rfl, hb⟩, if_pos ⟨rfl, by simp [hb]⟩]
        have hba : b ≠ a := hl b (by simp [hb])
        have e1 : updateIndex mu C (a, j) a a = C a a := if_neg fun h => hj h.2.symm
        have e2 : updateIndex mu C (a, j) b b = C b b := if_neg fun h => hba h.1
        have e3 : updateIndex mu C (a, j) a b = C a b := if_neg fun h => hbj h.2
        rw [e1, e2, e3]
      · rw [if_neg fun h => hb h.2]
        by_cases hbj : b = j
        · subst hbj
          rw [if_pos ⟨rfl, by simp⟩]
          exact if_pos ⟨rfl, rfl⟩
        · rw [if_neg fun h => (List.mem_cons.1 h.2).elim hbj hb]
          exact if_neg fun h => hbj h.2
    · rw [if_neg fun h => ha h.1, if_neg fun h => ha h.1]
      exact if_neg fun h => ha h.1

/-- one row of the loop -/
def row (i : Fin n) : List (Fin n × Fin n) :=
  ((List.finRange n).filter fun j => j < i).map (fun j => (i, j)) ++
    ((List.finRange n).filter fun j => i < j).map (fun j => (i, j)) ++ [(i, i)]

theorem row_fold' (mu : Fin n → F64) (i : Fin n) (C : Fin n → Fin n → F64) :
    (row i).foldl (updateIndex mu) C =
      fun a b => if a = i then (mu i + mu b + (C i i + C b b) / 2).exp * ((C i b).exp - 1) else C a b := by
  unfold row
  rw [List.foldl_append, ← List.map_append, row_fold mu i]
  · funext a b
    simp only [List.foldl_cons, List.foldl_nil]
    by_cases hab : a = i ∧ b = i
    · obtain ⟨rfl, rfl⟩ := hab
      rw [if_pos rfl]
      refine (if_pos ⟨rfl, rfl⟩).trans ?_
      simp
    · refine (if_neg hab).trans ?_
      by_cases ha : a = i
      · subst ha
        have hb : b ≠ a := fun h => hab ⟨rfl, h⟩
        rw [if_pos rfl, if_pos]
        refine ⟨rfl, ?_⟩
        rcases lt_or_gt_of_ne hb with h | h
        · simp [h]
        · simp [h]
      · rw [if_neg ha, if_neg fun h => ha h.1]
  · intro j hj
    simp only [List.mem_append, List.mem_filter, decide_eq_true_eq] at hj
    rcases hj with ⟨_, h⟩ | ⟨_, h⟩
    · exact h.ne
    · exact h.ne'
  · refine List.Nodup.append (List.Nodup.filter _ (List.nodup_finRange n)) (List.Nodup.filter _ (List.nodup_finRange n)) ?_
    intro j h1 h2
    simp only [List.mem_filter, decide_eq_true_eq] at h1 h2
    exact absurd h1.2 (not_lt.2 h2.2.le)

theorem covariance_closed (mu : Fin n → F64) (S : Fin n → Fin n → F64) : MvLogNormal.covariance mu S = closed mu S := by
  have key : ∀ k ≤ n, (((List.finRange n).take k).flatMap row).foldl (updateIndex mu) S =
      fun a b => if a.1 < k then closed mu S a b else S a b := by
    intro k
    induction k with
    | zero => intro _; funext a b; simp
    | succ k ih =>
      intro hk
      have hk' : k < n := hk
      rw [List.take_add_one, List.flatMap_append, List.foldl_append, ih hk'.le]
      have : (List.finRange n)[k]? = some ⟨k, hk'⟩ := by rw [List.getElem?_eq_getElem (by simpa using hk')]; simp
      rw [this]
      simp only [Option.toList_some, List.flatMap_singleton]
      rw [row_fold']
      funext a b
      by_cases ha : a = ⟨k, hk'⟩
      · subst ha
        rw [if_pos rfl, if_pos (Nat.lt_succ_self k), if_neg (lt_irrefl k), if_neg (lt_irrefl k)]
        unfold closed
        by_cases hb : b.1 < k
        · rw [if_pos hb, if_pos (show b < ⟨k, hk'⟩ from hb), if_neg (lt_irrefl b)]
        · rw [if_neg hb, if_neg (show ¬ b < ⟨k, hk'⟩ from hb)]
      · rw [if_neg ha]
        have hne : a.1 ≠ k := fun h => ha (Fin.ext h)
        by_cases hak : a.1 < k
        · rw [if_pos hak, if_pos (by omega)]
        · rw [if_neg hak, if_neg (by omega)]
  have := key n le_rfl
  rw [List.take_of_length_le (by simp)] at this
  have e : MvLogNormal.covariance mu S = ((List.finRange n).flatMap row).foldl (updateIndex mu) S := rfl
  rw [e, this]
  funext a b
  rw [if_pos a.2]
end MvLogNormal

/-! ### exponential moments of Gaussian vectors -/
section
variable {n : ℕ}

theorem pi_gauss_exp (c : Fin n → ℝ) :
    Integrable (fun z : Fin n → ℝ => Real.exp (∑ k, c k * z k)) (Measure.pi fun _ => gaussianReal 0 1) ∧
    ∫ z : Fin n → ℝ, Real.exp (∑ k, c k * z k) ∂(Measure.pi fun _ => gaussianReal 0 1) = Real.exp (∑ k, c k ^ 2 / 2) := by
  have e : (fun z : Fin n → ℝ => Real.exp (∑ k, c k * z k)) = fun z => ∏ k, Real.exp (c k * z k) := by
    funext z; rw [Real.exp_sum]
  have hi : ∀ k, Integrable (fun x : ℝ => Real.exp (c k * x)) (gaussianReal 0 1) := fun k => integrable_exp_mul_gaussianReal (c k)
  rw [e]
  refine ⟨Integrable.fintype_prod (f := fun k x => Real.exp (c k * x)) hi, ?_⟩
  rw [integral_fintype_prod_eq_prod (fun k x => Real.exp (c k * x)), Real.exp_sum]
  refine Finset.prod_congr rfl fun k _ => ?_
  have := congrFun (mgf_id_gaussianReal (μ := 0) (v := 1)) (c k)
  simp only [mgf, id] at this
  rw [this]; simp

theorem quad_sum (A M : Matrix (Fin n) (Fin n) ℝ) (h : A * Aᵀ = M) (i j : Fin n) : ∑ k, A i k * A j k = M i j := by
  rw [← h]; rfl

/-- mean and second moments of the exponential of a Gaussian vector -/
theorem gauss_exp_moments (m : Fin n → ℝ) {A M : Matrix (Fin n) (Fin n) ℝ} (h : A * Aᵀ = M) (i j : Fin n) :
    (Integrable (fun z : Fin n → ℝ => Real.exp ((m + A *ᵥ z) i)) (Measure.pi fun _ => gaussianReal 0 1) ∧
      ∫ z : Fin n → ℝ, Real.exp ((m + A *ᵥ z) i) ∂(Measure.pi fun _ => gaussianReal 0 1) = Real.exp (m i + M i i / 2)) ∧
    (Integrable (fun z : Fin n → ℝ => Real.exp ((m + A *ᵥ z) i) * Real.exp ((m + A *ᵥ z) j)) (Measure.pi fun _ => gaussianReal 0 1) ∧
      ∫ z : Fin n → ℝ, Real.exp ((m + A *ᵥ z) i) * Real.exp ((m + A *ᵥ z) j) ∂(Measure.pi fun _ => gaussianReal 0 1) =
        Real.exp (m i + m j + (M i i + M j j) / 2 + M i j)) := by
  constructor
  · have h1 := pi_gauss_exp fun k => A i k
    have e : (fun z : Fin n → ℝ => Real.exp ((m + A *ᵥ z) i)) = fun z => Real.exp (m i) * Real.exp (∑ k, A i k * z k) := by
      funext z; rw [← Real.exp_add]; rfl
    rw [e]
    refine ⟨h1.1.const_mul _, ?_⟩
    rw [integral_const_mul, h1.2, ← Real.exp_add, ← quad_sum A M h i i, Finset.sum_div]
    congr 2
    exact Finset.sum_congr rfl fun k _ => by ring
  · have h1 := pi_gauss_exp fun k => A i k + A j k
    have e : (fun z : Fin n → ℝ => Real.exp ((m + A *ᵥ z) i) * Real.exp ((m + A *ᵥ z) j)) =
        fun z => Real.exp (m i + m j) * Real.exp (∑ k, (A i k + A j k) * z k) := by
      funext z
      rw [← Real.exp_add, ← Real.exp_add]
      congr 1
      show m i + ∑ k, A i k * z k + (m j + ∑ k, A j k * z k) = _
      simp only [add_mul, Finset.sum_add_distrib]; ring
    rw [e]
    refine ⟨h1.1.const_mul _, ?_⟩
    rw [integral_const_mul, h1.2, ← Real.exp_add]
    congr 1
    have : ∑ k, (A i k + A j k) ^ 2 / 2 = (∑ k, A i k * A i k + ∑ k, A j k * A j k) / 2 + ∑ k, A i k * A j k := by
      rw [← Finset.sum_add_distrib, Finset.sum_div, ← Finset.sum_add_distrib]
      exact Finset.sum_congr rfl fun k _ => by ring
    rw [this, quad_sum A M h, quad_sum A M h, quad_sum A M h]; ring

/-- moments of the exponential of a vector with law `multivariateGaussian m M` -/
theorem lognormal_moments (m : Fin n → ℝ) {M : Matrix (Fin n) (Fin n) ℝ} {A : Matrix (Fin n) (Fin n) ℝ} (h : A * Aᵀ = M)
    (hlaw : (Measure.pi fun _ : Fin n => gaussianReal 0 1).map (fun z => WithLp.toLp 2 (m + A *ᵥ z)) =
      multivariateGaussian (WithLp.toLp 2 m) M) :
    (∀ i, Integrable (fun y => y i) (expLaw (multivariateGaussian (WithLp.toLp 2 m) M)) ∧
      ∫ y, y i ∂(expLaw (multivariateGaussian (WithLp.toLp 2 m) M)) = Real.exp (m i + M i i / 2)) ∧
    ∀ i j, HasCovM (expLaw (multivariateGaussian (WithLp.toLp 2 m) M)) (fun y => y i) (fun y => y j)
      (Real.exp (m i + m j + (M i i + M j j) / 2) * (Real.exp (M i j) - 1)) := by
  have hmeas : Measurable fun (x : EuclideanSpace ℝ (Fin n)) (i : Fin n) => Real.exp (x i) := by fun_prop
  have hmeas2 : Measurable fun z : Fin n → ℝ => (WithLp.toLp 2 (m + A *ᵥ z) : EuclideanSpace ℝ (Fin n)) := by fun_prop
  have hE : expLaw (multivariateGaussian (WithLp.toLp 2 m) M) =
      (Measure.pi fun _ : Fin n => gaussianReal 0 1).map fun z i => Real.exp ((m + A *ᵥ z) i) := by
    rw [expLaw, ← hlaw, Measure.map_map hmeas hmeas2]; rfl
  have hmm : Measurable fun (z : Fin n → ℝ) (i : Fin n) => Real.exp ((m + A *ᵥ z) i) := hmeas.comp hmeas2
  rw [hE]
  have hmean : ∀ i, Integrable (fun y : Fin n → ℝ => y i) ((Measure.pi fun _ : Fin n => gaussianReal 0 1).map fun z i => Real.exp ((m + A *ᵥ z) i)) ∧
      ∫ y, y i ∂((Measure.pi fun _ : Fin n => gaussianReal 0 1).map fun z i => Real.exp ((m + A *ᵥ z) i)) = Real.exp (m i + M i i / 2) := fun i => by
    obtain ⟨h1, h2⟩ := (gauss_exp_moments m h i i).1
    constructor
    · rw [integrable_map_measure (measurable_pi_apply i).aestronglyMeasurable hmm.aemeasurable]; exact h1
    · rw [integral_map hmm.aemeasurable (measurable_pi_apply i).aestronglyMeasurable]; exact h2
  refine ⟨hmean, fun i j => ?_⟩
  obtain ⟨i1, i2⟩ := hmean i
  obtain ⟨j1, j2⟩ := hmean j
  obtain ⟨s1, s2⟩ := (gauss_exp_moments m h i j).2
  have hij : Measurable fun y : Fin n → ℝ => y i * y j := (measurable_pi_apply i).mul (measurable_pi_apply j)
  have S1 : Integrable (fun y : Fin n → ℝ => y i * y j) ((Measure.pi fun _ : Fin n => gaussianReal 0 1).map fun z i => Real.exp ((m + A *ᵥ z) i)) := by
    rw [integrable_map_measure hij.aestronglyMeasurable hmm.aemeasurable]; exact s1
  have S2 : ∫ y, y i * y j ∂((Measure.pi fun _ : Fin n => gaussianReal 0 1).map fun z i => Real.exp ((m + A *ᵥ z) i)) =
      Real.exp (m i + m j + (M i i + M j j) / 2 + M i j) := by
    rw [integral_map hmm.aemeasurable hij.aestronglyMeasurable]; exact s2
  have hP : IsProbabilityMeasure ((Measure.pi fun _ : Fin n => gaussianReal 0 1).map fun z i => Real.exp ((m + A *ᵥ z) i)) :=
    Measure.isProbabilityMeasure_map hmm.aemeasurable
  generalize ((Measure.pi fun _ : Fin n => gaussianReal 0 1).map fun z i => Real.exp ((m + A *ᵥ z) i)) = P at *
  set a := Real.exp (m i + M i i / 2) with ha
  set b := Real.exp (m j + M j j / 2) with hb
  have e : (fun y : Fin n → ℝ => (y i - a) * (y j - b)) = fun y => y i * y j - b * y i - a * y j + a * b := by funext y; ring
  have I1 : Integrable (fun y : Fin n → ℝ => y i * y j - b * y i) P := S1.sub (i1.const_mul _)
  have I2 : Integrable (fun y : Fin n → ℝ => y i * y j - b * y i - a * y j) P := I1.sub (j1.const_mul _)
  refine ⟨a, b, i1, j1, i2, j2, ?_, ?_⟩
  · rw [e]; exact I2.add (integrable_const _)
  · rw [e, integral_add I2 (integrable_const _), integral_sub I1 (j1.const_mul _), integral_sub S1 (i1.const_mul _), integral_const_mul,
      integral_const_mul, i2, j2, S2, integral_const]
    simp only [probReal_univ, one_smul]
    rw [show m i + m j + (M i i + M j j) / 2 + M i j = (m i + M i i / 2) + (m j + M j j / 2) + M i j by ring,
      show m i + m j + (M i i + M j j) / 2 = (m i + M i i / 2) + (m j + M j j / 2) by ring, Real.exp_add (_ + _), Real.exp_add (m i + _), ← ha, ← hb]
    ring

/-! ### density -/
/-- density of the image of Lebesgue measure under `exp` -/
noncomputable def recip (y : ℝ) : ℝ := if 0 < y then 1 / y else 0

theorem recip_measurable : Measurable recip := Measurable.ite measurableSet_Ioi (by fun_prop) measurable_const

theorem map_exp_volume : (volume : Measure ℝ).map Real.exp = volume.withDensity fun y => ENNReal.ofReal (recip y) := by
  refine Measure.ext_of_lintegral _ fun f hf => ?_
  rw [lintegral_map hf Real.measurable_exp, lintegral_withDensity_eq_lintegral_mul _ recip_measurable.ennreal_ofReal hf]
  have h := lintegral_image_eq_lintegral_abs_deriv_mul MeasurableSet.univ (f := Real.exp) (f' := Real.exp)
    (fun x _ => (Real.hasDerivAt_exp x).hasDerivWithinAt) Real.exp_injective.injOn (fun y => ENNReal.ofReal (recip y) * f y)
  rw [Set.image_univ, Real.range_exp, Measure.restrict_univ] at h
  have e1 : ∫⁻ y, ((fun y => ENNReal.ofReal (recip y)) * f) y = ∫⁻ y in Set.Ioi (0:ℝ), ENNReal.ofReal (recip y) * f y := by
    rw [← lintegral_indicator measurableSet_Ioi]
    refine lintegral_congr fun y => ?_
    by_cases hy : 0 < y
    · rw [Set.indicator_of_mem (Set.mem_Ioi.2 hy)]; rfl
    · rw [Set.indicator_of_notMem (by simpa using hy), Pi.mul_apply]
      simp only [recip, if_neg hy, ENNReal.ofReal_zero, zero_mul]
  rw [e1, h]
  refine lintegral_congr fun x => ?_
  rw [← mul_assoc, ← ENNReal.ofReal_mul (abs_nonneg _), recip, if_pos (Real.exp_pos x), abs_of_pos (Real.exp_pos x),
    mul_one_div_cancel (Real.exp_pos x).ne', ENNReal.ofReal_one, one_mul]

theorem map_exp_volume_pi : (volume : Measure (Fin n → ℝ)).map (fun x i => Real.exp (x i)) =
    volume.withDensity fun y => ∏ i, ENNReal.ofReal (recip (y i)) := by
  have hs : SigmaFinite ((volume : Measure ℝ).withDensity fun y => ENNReal.ofReal (recip y)) :=
    SigmaFinite.withDensity_ofReal recip
  have hs' : SigmaFinite ((volume : Measure ℝ).map Real.exp) := by rw [map_exp_volume]; exact hs
  have h := Measure.pi_map_pi (μ := fun _ : Fin n => (volume : Measure ℝ)) (f := fun _ => Real.exp)
    (fun _ => Real.measurable_exp.aemeasurable)
  rw [← pi_withDensity (fun _ : Fin n => fun y => ENNReal.ofReal (recip y)) fun _ => recip_measurable.ennreal_ofReal]
  rw [volume_pi, h]
  simp only [map_exp_volume]

theorem lintegral_affine (m : Fin n → ℝ) (L : Matrix (Fin n) (Fin n) ℝ) (hL : L.det ≠ 0) (g : (Fin n → ℝ) → ENNReal) (hg : Measurable g) :
    ∫⁻ x, g x = ENNReal.ofReal |L.det| * ∫⁻ z, g (m + L *ᵥ z) := by
  have hmap := Real.map_matrix_volume_pi_eq_smul_volume_pi hL
  have hm' : Measurable (toLin' L) := (LinearMap.continuous_of_finiteDimensional _).measurable
  have e : ∫⁻ z, g (m + L *ᵥ z) = ∫⁻ x, g (m + x) ∂(volume.map (toLin' L)) := by
    rw [lintegral_map (by fun_prop) hm']; rfl
  rw [e, hmap, lintegral_smul_measure, smul_eq_mul, ← mul_assoc, ← ENNReal.ofReal_mul (abs_nonneg _), ← abs_mul,
    mul_inv_cancel₀ hL, abs_one, ENNReal.ofReal_one, one_mul, lintegral_add_left_eq_self g m]

theorem mvGaussianPDF_measurable (m : Fin n → ℝ) (M : Matrix (Fin n) (Fin n) ℝ) : Measurable (mvGaussianPDF m M) := by
  unfold mvGaussianPDF dotProduct mulVec dotProduct
  fun_prop

/-- the Gaussian law has the Gaussian density -/
theorem mvGaussian_lintegral (m : Fin n → ℝ) {L M : Matrix (Fin n) (Fin n) ℝ} (h : L * Lᵀ = M) (hL : 0 < L.det)
    (H : (Fin n → ℝ) → ENNReal) (hH : Measurable H) :
    ∫⁻ z, H (m + L *ᵥ z) ∂(Measure.pi fun _ : Fin n => gaussianReal 0 1) = ∫⁻ x, ENNReal.ofReal (mvGaussianPDF m M x) * H x := by
  have hpm := (mvGaussianPDF_measurable m M).ennreal_ofReal
  rw [lintegral_affine m L hL.ne' (fun x => ENNReal.ofReal (mvGaussianPDF m M x) * H x) (hpm.mul hH)]
  have hg : gaussianReal 0 1 = (volume : Measure ℝ).withDensity fun x => ENNReal.ofReal (phi x) := by
    rw [gaussianReal_of_var_ne_zero _ one_ne_zero]; rfl
  have hphi : Measurable phi := (stronglyMeasurable_gaussianPDFReal 0 1).measurable
  have hs : SigmaFinite ((volume : Measure ℝ).withDensity fun x => ENNReal.ofReal (phi x)) := SigmaFinite.withDensity_ofReal phi
  have hHm : Measurable fun z : Fin n → ℝ => H (m + L *ᵥ z) := by
    refine hH.comp ?_
    unfold mulVec dotProduct; fun_prop
  have hprod : Measurable fun z : Fin n → ℝ => ∏ i, ENNReal.ofReal (phi (z i)) :=
    Finset.measurable_prod _ fun i _ => hphi.ennreal_ofReal.comp (measurable_pi_apply i)
  rw [hg, pi_withDensity (fun _ : Fin n => fun x => ENNReal.ofReal (phi x)) fun _ => hphi.ennreal_ofReal,
    lintegral_withDensity_eq_lintegral_mul _ hprod hHm,
    ← lintegral_const_mul _ (by
      refine Measurable.mul ?_ hHm
      refine hpm.comp ?_
      unfold mulVec dotProduct; fun_prop)]
  refine lintegral_congr fun z => ?_
  rw [pdf_affine m h hL, Pi.mul_apply, ← mul_assoc, ← ENNReal.ofReal_mul (abs_nonneg _), abs_of_pos hL, mul_div_cancel₀ _ hL.ne',
    ENNReal.ofReal_prod_of_nonneg (f := fun i => phi (z i)) fun i _ => gaussianPDFReal_nonneg _ _ _]

/-- the coordinatewise exponential of a Gaussian vector has density `expVecPDF (mvGaussianPDF m M)` -/
theorem expLaw_density (m : Fin n → ℝ) {L M : Matrix (Fin n) (Fin n) ℝ} (h : L * Lᵀ = M) (hL : 0 < L.det)
    (hlaw : (Measure.pi fun _ : Fin n => gaussianReal 0 1).map (fun z => WithLp.toLp 2 (m + L *ᵥ z)) =
      multivariateGaussian (WithLp.toLp 2 m) M) :
    expLaw (multivariateGaussian (WithLp.toLp 2 m) M) =
      volume.withDensity fun y => ENNReal.ofReal (expVecPDF (mvGaussianPDF m M) y) := by
  have hmeas : Measurable fun (x : EuclideanSpace ℝ (Fin n)) (i : Fin n) => Real.exp (x i) := by fun_prop
  have hmeas2 : Measurable fun z : Fin n → ℝ => (WithLp.toLp 2 (m + L *ᵥ z) : EuclideanSpace ℝ (Fin n)) := by fun_prop
  have hexp : Measurable fun (x : Fin n → ℝ) (i : Fin n) => Real.exp (x i) := by fun_prop
  have hlog : Measurable fun (x : Fin n → ℝ) (i : Fin n) => Real.log (x i) := by fun_prop
  have hpm := (mvGaussianPDF_measurable m M).ennreal_ofReal
  have hrm : Measurable fun y : Fin n → ℝ => ∏ i, ENNReal.ofReal (recip (y i)) :=
    Finset.measurable_prod _ fun i _ => recip_measurable.ennreal_ofReal.comp (measurable_pi_apply i)
  have hE : ∀ y : Fin n → ℝ, ENNReal.ofReal (expVecPDF (mvGaussianPDF m M) y) =
      (∏ i, ENNReal.ofReal (recip (y i))) * ENNReal.ofReal (mvGaussianPDF m M fun i => Real.log (y i)) := fun y => by
    unfold expVecPDF
    split_ifs with hy
    · rw [← ENNReal.ofReal_prod_of_nonneg fun i _ => by rw [recip, if_pos (hy i)]; exact (one_div_pos.2 (hy i)).le,
        ← ENNReal.ofReal_mul (Finset.prod_nonneg fun i _ => by rw [recip, if_pos (hy i)]; exact (one_div_pos.2 (hy i)).le)]
      congr 1
      have er : ∏ i, recip (y i) = ∏ i, 1 / y i := Finset.prod_congr rfl fun i _ => if_pos (hy i)
      rw [er]
      simp only [one_div, Finset.prod_inv_distrib]
      rw [div_eq_mul_inv, mul_comm]
    · push Not at hy
      obtain ⟨i, hi⟩ := hy
      rw [Finset.prod_eq_zero (Finset.mem_univ i) (by rw [recip, if_neg (not_lt.2 hi), ENNReal.ofReal_zero]), zero_mul, ENNReal.ofReal_zero]
  have hEm : Measurable fun y : Fin n → ℝ => ENNReal.ofReal (expVecPDF (mvGaussianPDF m M) y) := by
    simp only [hE]; exact hrm.mul (hpm.comp hlog)
  refine Measure.ext_of_lintegral _ fun f hf => ?_
  rw [expLaw, lintegral_map hf hmeas, ← hlaw, lintegral_map (f := fun x : EuclideanSpace ℝ (Fin n) => f fun i => Real.exp (x i)) (hf.comp hmeas) hmeas2]
  have h1 := mvGaussian_lintegral m h hL (fun x => f fun i => Real.exp (x i)) (hf.comp hexp)
  refine Eq.trans ?_ (h1.trans ?_)
  · rfl
  have hlf : Measurable fun y : Fin n → ℝ => ENNReal.ofReal (mvGaussianPDF m M fun i => Real.log (y i)) * f y := (hpm.comp hlog).mul hf
  have e : ∫⁻ x : Fin n → ℝ, ENNReal.ofReal (mvGaussianPDF m M x) * f (fun i => Real.exp (x i)) =
      ∫⁻ y, ENNReal.ofReal (mvGaussianPDF m M fun i => Real.log (y i)) * f y ∂((volume : Measure (Fin n → ℝ)).map fun x i => Real.exp (x i)) := by
    rw [lintegral_map hlf hexp]
    refine lintegral_congr fun x => ?_
    simp only [Real.log_exp]
  rw [e, map_exp_volume_pi, lintegral_withDensity_eq_lintegral_mul _ hrm hlf,
    lintegral_withDensity_eq_lintegral_mul _ hEm hf]
  refine lintegral_congr fun y => ?_
  simp only [Pi.mul_apply, hE, mul_assoc]
end
end Rstat
