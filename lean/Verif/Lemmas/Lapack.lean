import Verif.Model.MvNormal
import Verif.Float.ExactInst
import Mathlib.Analysis.Matrix.LDL
import Mathlib.LinearAlgebra.Matrix.Block
import Mathlib.Probability.Distributions.Gaussian.Multivariate

/-! Contract of the LAPACK interface in exact arithmetic, its satisfiability, and the law of `μ + A z`. -/
namespace Rstat
open F64 Matrix

/-- LAPACK's documented behaviour in exact arithmetic: `dpotrf` reads the lower triangle of a positive definite matrix and
leaves a lower triangular factor with positive diagonal there; `dtrtri` inverts a nonsingular triangular matrix -/
class Lapack.Exact [FP] [Lapack] : Prop where
  potrf_eq : ∀ {n : ℕ} {A : Fin n → Fin n → F64} {M : Matrix (Fin n) (Fin n) ℝ}, M.PosDef →
    (∀ i j, j ≤ i → (A i j).Is (M i j)) →
    ∃ L : Matrix (Fin n) (Fin n) ℝ, (∀ i j, i < j → L i j = 0) ∧ (∀ i, 0 < L i i) ∧ L * Lᵀ = M ∧
      ∀ i j, j ≤ i → (Lapack.potrf A i j).Is (L i j)
  trtri_eq : ∀ {n : ℕ} {A : Fin n → Fin n → F64} {L : Matrix (Fin n) (Fin n) ℝ}, (∀ i j, i < j → L i j = 0) →
    (∀ i, L i i ≠ 0) → (∀ i j, (A i j).Is (L i j)) → ∀ i j, (Lapack.trtri A i j).Is (L⁻¹ i j)

theorem exists_cholesky {n : ℕ} {M : Matrix (Fin n) (Fin n) ℝ} (hM : M.PosDef) :
    ∃ L : Matrix (Fin n) (Fin n) ℝ, (∀ i j, i < j → L i j = 0) ∧ (∀ i, 0 < L i i) ∧ L * Lᵀ = M := by
  have hl : (LDL.lower hM).BlockTriangular OrderDual.toDual := by
    have : (LDL.lowerInv hM).BlockTriangular OrderDual.toDual := fun i j h => LDL.lowerInv_triangular hM h
    exact blockTriangular_inv_of_blockTriangular this
  have hlow : ∀ i j, i < j → LDL.lower hM i j = 0 := fun i j h => hl h
  have hd : ∀ i, 0 < LDL.diagEntries hM i := by
    intro i
    have h1 := LDL.diag_eq_lowerInv_conj hM
    have hinj : Function.Injective (LDL.lowerInv hM).vecMul :=
      Matrix.vecMul_injective_of_isUnit (isUnit_of_invertible _)
    have h2 : (LDL.diag hM).PosDef := by
      rw [h1]; exact hM.mul_mul_conjTranspose_same hinj
    simpa [LDL.diag] using h2.diag_pos (i := i)
  have hconj := LDL.lower_conj_diag hM
  set B := LDL.lower hM with hB
  have hBd : ∀ i, B i i ≠ 0 := by
    have h2 : B.det = ∏ i, B i i := det_of_lowerTriangular B hl
    have h3 : B.det ≠ 0 := by
      have : IsUnit B.det := by
        rw [hB, LDL.lower]
        exact (Matrix.isUnit_iff_isUnit_det _).1 (by
          rw [Matrix.isUnit_nonsing_inv_iff]; exact isUnit_of_invertible _)
      exact this.ne_zero
    rw [h2] at h3
    intro i; exact (Finset.prod_ne_zero_iff.1 h3) i (Finset.mem_univ i)
  let e : Fin n → ℝ := fun i => SignType.sign (B i i) * Real.sqrt (LDL.diagEntries hM i)
  have he : ∀ i, e i * e i = LDL.diagEntries hM i := by
    intro i
    have h1 : ((SignType.sign (B i i) : ℝ)) * (SignType.sign (B i i) : ℝ) = 1 := by
      rcases lt_or_gt_of_ne (hBd i) with h | h
      · rw [sign_neg h]; simp
      · rw [sign_pos h]; simp
    show _ * _ * (_ * _) = _
    rw [mul_mul_mul_comm, h1, one_mul, Real.mul_self_sqrt (hd i).le]
  refine ⟨B * diagonal e, ?_, ?_, ?_⟩
  · intro i j h; rw [mul_diagonal, hlow i j h, zero_mul]
  · intro i
    rw [mul_diagonal]
    show 0 < B i i * (_ * _)
    rw [← mul_assoc]
    refine mul_pos ?_ (Real.sqrt_pos.2 (hd i))
    rcases lt_or_gt_of_ne (hBd i) with h | h
    · rw [sign_neg h]; simpa using h
    · rw [sign_pos h]; simpa using h
  · rw [transpose_mul, diagonal_transpose, mul_assoc, ← mul_assoc (diagonal e), diagonal_mul_diagonal]
    simp only [he]
    rw [← mul_assoc]
    refine Eq.trans ?_ hconj
    simp [LDL.diag]

open Classical in
/-- a LAPACK satisfying the contract -/
noncomputable def exactLapack [FP] : Lapack where
  potrf {n} A := if h : ∃ L : Matrix (Fin n) (Fin n) ℝ, (∀ i j, i < j → L i j = 0) ∧ (∀ i, 0 < L i i) ∧
      L * Lᵀ = Matrix.of (fun i j => if j ≤ i then (A i j).toReal else (A j i).toReal)
    then fun i j => fin (h.choose i j) else A
  trtri {n} A := fun i j => fin ((Matrix.of fun i j => (A i j).toReal)⁻¹ i j)

theorem exactLapack_exact [FP] [FP.Exact] : @Lapack.Exact _ exactLapack := by
  letI : Lapack := exactLapack
  refine ⟨?_, ?_⟩
  · intro n A M hM hA
    have hsym : ∀ i j, M i j = M j i := fun i j => by
      have := hM.isHermitian.apply i j; simpa using this.symm
    have e : Matrix.of (fun i j => if j ≤ i then (A i j).toReal else (A j i).toReal) = M := by
      ext i j
      simp only [of_apply]
      split_ifs with h
      · exact (hA i j h).toReal_eq
      · rw [(hA j i (not_le.1 h).le).toReal_eq, hsym]
    have h : ∃ L : Matrix (Fin n) (Fin n) ℝ, (∀ i j, i < j → L i j = 0) ∧ (∀ i, 0 < L i i) ∧
      L * Lᵀ = Matrix.of (fun i j => if j ≤ i then (A i j).toReal else (A j i).toReal) := by
      rw [e]; exact exists_cholesky hM
    refine ⟨h.choose, h.choose_spec.1, h.choose_spec.2.1, h.choose_spec.2.2.trans e, fun i j _ => ?_⟩
    show (exactLapack.potrf A i j).Is _
    unfold exactLapack
    dsimp only
    rw [dif_pos h]; exact Is.fin _
  · intro n A L _ _ hA i j
    show (exactLapack.trtri A i j).Is _
    unfold exactLapack
    dsimp only
    have : Matrix.of (fun i j => (A i j).toReal) = L := by
      ext i j; exact (hA i j).toReal_eq
    rw [this]; exact Is.fin _

open MeasureTheory ProbabilityTheory in
/-- an affine image of the standard Gaussian is the multivariate Gaussian with covariance `L Lᵀ` -/
theorem law_affine {n : ℕ} (μ : EuclideanSpace ℝ (Fin n)) (L M : Matrix (Fin n) (Fin n) ℝ) (h : L * Lᵀ = M) :
    (stdGaussian (EuclideanSpace ℝ (Fin n))).map (fun x => μ + toEuclideanCLM (𝕜 := ℝ) L x) = multivariateGaussian μ M := by
  have hM : M.PosSemidef := by
    rw [← h]; simpa using posSemidef_self_mul_conjTranspose L
  apply Measure.ext_of_charFun
  ext t
  rw [charFun_multivariateGaussian hM, charFun_apply, integral_map (by fun_prop)
    (Measurable.aestronglyMeasurable (by fun_prop))]
  have e : ∀ x : EuclideanSpace ℝ (Fin n), Complex.exp (inner ℝ (μ + toEuclideanCLM (𝕜 := ℝ) L x) t * Complex.I) =
      Complex.exp (inner ℝ μ t * Complex.I) * Complex.exp (inner ℝ x (toEuclideanCLM (𝕜 := ℝ) Lᵀ t) * Complex.I) := by
    intro x
    have hadj : inner ℝ (toEuclideanCLM (𝕜 := ℝ) L x) t = inner ℝ x (toEuclideanCLM (𝕜 := ℝ) Lᵀ t) := by
      have : toEuclideanCLM (𝕜 := ℝ) Lᵀ = ContinuousLinearMap.adjoint (toEuclideanCLM (𝕜 := ℝ) L) := by
        rw [← ContinuousLinearMap.star_eq_adjoint, ← map_star, star_eq_conjTranspose]; simp
      rw [this, ContinuousLinearMap.adjoint_inner_right]
    rw [inner_add_left, hadj, ← Complex.exp_add]; push_cast; ring_nf
  simp_rw [e]
  rw [integral_const_mul, ← charFun_apply, charFun_stdGaussian, ← Complex.exp_add]
  congr 1
  have hn : ‖toEuclideanCLM (𝕜 := ℝ) Lᵀ t‖ ^ 2 = t ⬝ᵥ M *ᵥ t := by
    rw [← real_inner_self_eq_norm_sq, ← h]
    have : inner ℝ (toEuclideanCLM (𝕜 := ℝ) Lᵀ t) (toEuclideanCLM (𝕜 := ℝ) Lᵀ t) = 
      (Lᵀ *ᵥ t) ⬝ᵥ (Lᵀ *ᵥ t) := by
      rw [PiLp.inner_apply]; simp [dotProduct, sq]
    rw [this, ← mulVec_mulVec, dotProduct_mulVec (t : Fin n → ℝ), mulVec_transpose]
  rw [← Complex.ofReal_pow, hn, real_inner_comm]
  push_cast; ring

end Rstat
