import Mathlib.MeasureTheory.Measure.Lebesgue.Basic
import Mathlib.LinearAlgebra.Matrix.PosDef
import Verif.Lemmas.Gaussian
import Verif.Spec.Multi
import Verif.Lemmas.Lapack
import Mathlib.MeasureTheory.Integral.Pi

/-! The multivariate Gaussian density on `ℝⁿ`: total mass and entropy. -/
namespace Rstat.Spec
open MeasureTheory Real Matrix ProbabilityTheory

variable {n : ℕ}

theorem integral_affine (m : Fin n → ℝ) (L : Matrix (Fin n) (Fin n) ℝ) (hL : L.det ≠ 0) (g : (Fin n → ℝ) → ℝ) :
    (Integrable g ↔ Integrable fun z => g (m + L *ᵥ z)) ∧ ∫ x, g x = |L.det| * ∫ z, g (m + L *ᵥ z) := by
  have hmap := Real.map_matrix_volume_pi_eq_smul_volume_pi hL
  have hinj : Function.Injective (toLin' L) := by
    rw [toLin'_apply']; exact mulVec_injective_of_isUnit ((Matrix.isUnit_iff_isUnit_det _).2 (isUnit_iff_ne_zero.2 hL))
  have hemb : MeasurableEmbedding (toLin' L) := (LinearMap.continuous_of_finiteDimensional _).measurableEmbedding hinj
  have hd : ENNReal.ofReal |L.det⁻¹| ≠ 0 := by simpa using hL
  have h1 : Integrable g ↔ Integrable fun x => g (m + x) := by
    refine ⟨fun h => h.comp_add_left m, fun h => ?_⟩
    have := h.comp_add_left (-m)
    simpa using this
  have h2 : ∫ x, g x = ∫ x, g (m + x) := (integral_add_left_eq_self g m).symm
  refine ⟨?_, ?_⟩
  · rw [h1]
    have := hemb.integrable_map_iff (μ := volume) (g := fun x => g (m + x))
    rw [hmap, integrable_smul_measure hd ENNReal.ofReal_ne_top] at this
    rw [this]; rfl
  · rw [h2]
    have := hemb.integral_map (μ := volume) (fun x => g (m + x))
    rw [hmap, integral_smul_measure, ENNReal.toReal_ofReal (abs_nonneg _), smul_eq_mul] at this
    have e : ∫ z, g (m + L *ᵥ z) = ∫ z, g (m + (toLin' L) z) := rfl
    rw [e, ← this, abs_inv, mul_inv_cancel_left₀ (abs_ne_zero.2 hL)]

/-- standard normal density -/
noncomputable def phi (z : ℝ) : ℝ := gaussianPDFReal 0 1 z

theorem phi_eq (z : ℝ) : phi z = Real.exp (-z ^ 2 / 2) / √(2 * π) := by
  unfold phi gaussianPDFReal; simp; ring

theorem prod_phi (z : Fin n → ℝ) : ∏ i, phi (z i) = Real.exp (-(z ⬝ᵥ z) / 2) / √((2 * π) ^ n) := by
  simp only [phi_eq, Finset.prod_div_distrib, ← Real.exp_sum, Finset.prod_const, Finset.card_univ, Fintype.card_fin]
  congr 1
  · congr 1; rw [dotProduct, ← Finset.sum_div, Finset.sum_neg_distrib]; simp only [sq]
  · symm; rw [Real.sqrt_eq_iff_mul_self_eq (by positivity) (by positivity), ← mul_pow, Real.mul_self_sqrt (by positivity)]

theorem pdf_affine (m : Fin n → ℝ) {L M : Matrix (Fin n) (Fin n) ℝ} (hLM : L * Lᵀ = M) (hL : 0 < L.det) (z : Fin n → ℝ) :
    mvGaussianPDF m M (m + L *ᵥ z) = (∏ i, phi (z i)) / L.det := by
  have hu : IsUnit L.det := isUnit_iff_ne_zero.2 hL.ne'
  have hdet : M.det = L.det ^ 2 := by rw [← hLM, det_mul, det_transpose, sq]
  have hinv : M⁻¹ = (L⁻¹)ᵀ * L⁻¹ := by rw [← hLM, Matrix.mul_inv_rev, ← Matrix.transpose_nonsing_inv]
  have hz : L⁻¹ *ᵥ (L *ᵥ z) = z := by rw [mulVec_mulVec, nonsing_inv_mul _ hu, one_mulVec]
  rw [mvGaussianPDF, prod_phi, add_sub_cancel_left, hinv, ← mulVec_mulVec, hz, dotProduct_mulVec, vecMul_transpose, hz,
    hdet, Real.sqrt_mul (by positivity), Real.sqrt_sq hL.le, div_div]

theorem phi_int (k : ℕ) : Integrable (fun z => z ^ k * phi z) ∧ ∫ z, z ^ k * phi z = ∫ z, z ^ k ∂gaussianReal 0 1 := by
  obtain ⟨h1, h2⟩ := integral_gauss_std 0 one_pos (fun x => x ^ k) (by fun_prop)
  simp only [Real.sqrt_one, one_mul, add_zero, Real.toNNReal_one] at h1 h2
  exact ⟨h1.2 (std_integrable_pow k), h2⟩

theorem phi_int0 : Integrable phi ∧ ∫ z, phi z = 1 := by
  have := phi_int 0
  simpa using this

theorem prod_phi_int : Integrable (fun z : Fin n → ℝ => ∏ i, phi (z i)) ∧ ∫ z : Fin n → ℝ, ∏ i, phi (z i) = 1 := by
  refine ⟨Integrable.fintype_prod fun _ => phi_int0.1, ?_⟩
  rw [integral_fintype_prod_volume_eq_prod fun _ => phi]; simp [phi_int0.2]

theorem prod_phi_sq (i : Fin n) : Integrable (fun z : Fin n → ℝ => z i ^ 2 * ∏ j, phi (z j)) ∧
    ∫ z : Fin n → ℝ, z i ^ 2 * ∏ j, phi (z j) = 1 := by
  have e : (fun z : Fin n → ℝ => z i ^ 2 * ∏ j, phi (z j)) =
      fun z => ∏ j, (fun j t => (if j = i then t ^ 2 else 1) * phi t) j (z j) := by
    ext z; rw [Finset.prod_mul_distrib]; simp
  rw [e]
  refine ⟨Integrable.fintype_prod (μ := fun _ => volume)
    (f := fun j t => (if j = i then t ^ 2 else 1) * phi t) fun j => ?_, ?_⟩
  · by_cases h : j = i
    · simp only [h, if_true]; exact (phi_int 2).1
    · simp only [h, if_false, one_mul]; exact phi_int0.1
  · rw [integral_fintype_prod_volume_eq_prod fun j t => (if j = i then t ^ 2 else 1) * phi t]
    refine Finset.prod_eq_one fun j _ => ?_
    by_cases h : j = i
    · simp only [h, if_true]; rw [(phi_int 2).2, std_moment2]
    · simp only [h, if_false, one_mul]; exact phi_int0.2

theorem mvGaussian_total (m : Fin n → ℝ) {M : Matrix (Fin n) (Fin n) ℝ} (hM : M.PosDef) :
    (∀ x, 0 < mvGaussianPDF m M x) ∧ Integrable (mvGaussianPDF m M) ∧ ∫ x, mvGaussianPDF m M x = 1 := by
  obtain ⟨L, h0, h1, h2⟩ := exists_cholesky hM
  have hL : 0 < L.det := by
    rw [det_of_lowerTriangular L (fun i j hij => h0 i j hij)]; exact Finset.prod_pos fun i _ => h1 i
  obtain ⟨ha, hb⟩ := integral_affine m L hL.ne' (mvGaussianPDF m M)
  simp only [pdf_affine m h2 hL] at ha hb
  refine ⟨fun x => div_pos (Real.exp_pos _) (Real.sqrt_pos.2 (mul_pos (by positivity) hM.det_pos)),
    ha.2 (prod_phi_int.1.div_const _), ?_⟩
  rw [hb, integral_div, prod_phi_int.2, abs_of_pos hL]; field_simp

theorem mvGaussian_entropy (m : Fin n → ℝ) {M : Matrix (Fin n) (Fin n) ℝ} (hM : M.PosDef) :
    HasEntropyN (mvGaussianPDF m M) ((n * (1 + Real.log (2 * π)) + Real.log M.det) / 2) := by
  obtain ⟨L, h0, h1, h2⟩ := exists_cholesky hM
  have hL : 0 < L.det := by
    rw [det_of_lowerTriangular L (fun i j hij => h0 i j hij)]; exact Finset.prod_pos fun i _ => h1 i
  have hdet : M.det = L.det ^ 2 := by rw [← h2, det_mul, det_transpose, sq]
  obtain ⟨ha, hb⟩ := integral_affine m L hL.ne' fun x => mvGaussianPDF m M x * Real.log (mvGaussianPDF m M x)
  have e : ∀ z : Fin n → ℝ, mvGaussianPDF m M (m + L *ᵥ z) * Real.log (mvGaussianPDF m M (m + L *ᵥ z)) =
      (-1 / 2 * (∑ i, z i ^ 2 * ∏ j, phi (z j)) -
        (n / 2 * Real.log (2 * π) + Real.log L.det) * ∏ j, phi (z j)) / L.det := by
    intro z
    have hlog : Real.log (mvGaussianPDF m M (m + L *ᵥ z)) =
        -1 / 2 * (∑ i, z i ^ 2) - (n / 2 * Real.log (2 * π) + Real.log L.det) := by
      rw [pdf_affine m h2 hL, prod_phi, Real.log_div (by positivity) hL.ne', Real.log_div (by positivity) (by positivity),
        Real.log_exp, Real.log_sqrt (by positivity), Real.log_pow, dotProduct]
      simp only [← sq]; ring
    rw [hlog, pdf_affine m h2 hL, ← Finset.sum_mul]; ring
  simp only [e] at ha hb
  have i1 : Integrable fun z : Fin n → ℝ => ∑ i, z i ^ 2 * ∏ j, phi (z j) :=
    integrable_finsetSum _ fun i _ => (prod_phi_sq i).1
  have v1 : ∫ z : Fin n → ℝ, ∑ i, z i ^ 2 * ∏ j, phi (z j) = n := by
    rw [integral_finsetSum _ fun i _ => (prod_phi_sq i).1]; simp [(prod_phi_sq _).2]
  have j1 : Integrable fun z : Fin n → ℝ => -1 / 2 * ∑ i, z i ^ 2 * ∏ j, phi (z j) := i1.const_mul _
  have j2 : Integrable fun z : Fin n → ℝ => (n / 2 * Real.log (2 * π) + Real.log L.det) * ∏ j, phi (z j) :=
    prod_phi_int.1.const_mul _
  refine ⟨ha.2 ((j1.sub j2).div_const _), ?_⟩
  rw [hb, integral_div, integral_sub j1 j2, integral_const_mul, integral_const_mul, v1, prod_phi_int.2, abs_of_pos hL, hdet,
    Real.log_pow]
  field_simp; push_cast; ring

end Rstat.Spec
