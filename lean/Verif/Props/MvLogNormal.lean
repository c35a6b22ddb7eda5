import Verif.Props.MvNormal
import Verif.Lemmas.MvLogNormal

/-! Properties C104, C188, C189, C190: multivariate log-normals (general, diagonal, isotropic). -/
set_option linter.unusedSectionVars false
namespace Rstat
open F64 Consts Spec MeasureTheory ProbabilityTheory Real Set Matrix

/-! ### the law meant: coordinatewise exponential of the Gaussian with the given mean and covariance -/

/-- any positive definite covariance has a square root of positive determinant, through which the Gaussian law is reached -/
theorem root_of_posDef {n : ℕ} {M : Matrix (Fin n) (Fin n) ℝ} (hM : M.PosDef) :
    ∃ L : Matrix (Fin n) (Fin n) ℝ, L * Lᵀ = M ∧ 0 < L.det := by
  obtain ⟨L, h0, h1, h2⟩ := exists_cholesky hM
  refine ⟨L, h2, ?_⟩
  rw [det_of_lowerTriangular L (fun i j hij => h0 i j hij)]; exact Finset.prod_pos fun i _ => h1 i

/-- the moments of the exponential of a Gaussian vector -/
theorem expGauss_moments {n : ℕ} (m : Fin n → ℝ) {M : Matrix (Fin n) (Fin n) ℝ} (hM : M.PosDef) :
    (∀ i, Integrable (fun y => y i) (expLaw (multivariateGaussian (WithLp.toLp 2 m) M)) ∧
      ∫ y, y i ∂(expLaw (multivariateGaussian (WithLp.toLp 2 m) M)) = Real.exp (m i + M i i / 2)) ∧
    ∀ i j, HasCovM (expLaw (multivariateGaussian (WithLp.toLp 2 m) M)) (fun y => y i) (fun y => y j)
      (Real.exp (m i + m j + (M i i + M j j) / 2) * (Real.exp (M i j) - 1)) := by
  obtain ⟨L, h, -⟩ := root_of_posDef hM
  exact lognormal_moments m h (affine_law m L M h)

/-- covariances are unique -/
theorem Spec.HasCovM.unique {Ω : Type*} [MeasurableSpace Ω] {P : Measure Ω} {X Y : Ω → ℝ} {c c' : ℝ} (h : HasCovM P X Y c)
    (h' : HasCovM P X Y c') : c = c' := by
  obtain ⟨a, b, -, -, ha, hb, -, hc⟩ := h
  obtain ⟨a', b', -, -, ha', hb', -, hc'⟩ := h'
  subst ha hb ha' hb' hc
  exact hc'

section
variable [FP] [FP.Exact] {n : ℕ}

theorem lnmean_is {mu var : F64} {m v : ℝ} (hm : mu.Is m) (hv : var.Is v) : ((mu + var / 2).exp).Is (Real.exp (m + v / 2)) := by
  exact (hm.add (hv.div (Is.num 2) (by norm_num))).exp

theorem lnvar_is {mu var : F64} {m v : ℝ} (hm : mu.Is m) (hv : var.Is v) :
    ((2 * mu + var).exp * (var.exp - 1)).Is (Real.exp (m + m + (v + v) / 2) * (Real.exp v - 1)) := by
  refine Is.congr ((((Is.num 2).mul hm).add hv).exp.mul (hv.exp.sub Is.one)) ?_
  ring_nf

/-- the value the loop computes at `(i, j)`, over the reals -/
noncomputable def lnEntry (m : Fin n → ℝ) (M : Matrix (Fin n) (Fin n) ℝ) (i j : Fin n) : ℝ :=
  Real.exp (m i + m j + (M i i + (if j < i then Real.exp (m j + m j + (M j j + M j j) / 2) * (Real.exp (M j j) - 1) else M j j)) / 2) *
    (Real.exp (M i j) - 1)

theorem lncov_is {mu : Fin n → F64} {S : Fin n → Fin n → F64} {m : Fin n → ℝ} {M : Matrix (Fin n) (Fin n) ℝ}
    (hm : ∀ i, (mu i).Is (m i)) (hS : ∀ i j, (S i j).Is (M i j)) (i j : Fin n) :
    (MvLogNormal.covariance mu S i j).Is (lnEntry m M i j) := by
  rw [MvLogNormal.covariance_closed]
  unfold MvLogNormal.closed lnEntry
  have h2 : (2 : F64).Is 2 := Is.num 2
  refine Is.mul (Is.exp (((hm i).add (hm j)).add (((hS i i).add ?_).div h2 (by norm_num)))) ((hS i j).exp.sub Is.one)
  split_ifs with hji
  · exact Is.mul (Is.exp (((hm j).add (hm j)).add (((hS j j).add (hS j j)).div h2 (by norm_num)))) ((hS j j).exp.sub Is.one)
  · exact hS j j

theorem lnEntry_iff (m : Fin n → ℝ) (M : Matrix (Fin n) (Fin n) ℝ) (i j : Fin n) :
    lnEntry m M i j = Real.exp (m i + m j + (M i i + M j j) / 2) * (Real.exp (M i j) - 1) ↔
      (j < i → M i j = 0 ∨ Real.exp (m j + m j + (M j j + M j j) / 2) * (Real.exp (M j j) - 1) = M j j) := by
  unfold lnEntry
  by_cases hji : j < i
  · simp only [true_implies, hji, if_true]
    rw [mul_eq_mul_right_iff, Real.exp_eq_exp, sub_eq_zero, Real.exp_eq_one_iff, or_comm]
    constructor
    · rintro (h | h)
      · exact Or.inl h
      · right; linarith
    · rintro (h | h)
      · exact Or.inl h
      · right; rw [h]
  · simp [hji]
end

/-! ### C104 -/
section
variable [FP] [FP.Exact] {n : ℕ} [Lapack] [Lapack.Exact] {mu : Fin n → F64} {S : Fin n → Fin n → F64} {m : Fin n → ℝ}
  {M : Matrix (Fin n) (Fin n) ℝ} {d : MvNormal n}

/-- C104 (partial, general covariance): the entry `(i, j)` of `covariance()` is the covariance of the `i`-th and `j`-th
coordinates of the exponential of the Gaussian exactly when `i ≤ j`, or `Σ_ij = 0`, or the variance of the `j`-th coordinate
happens to equal `Σ_jj`. Missing: the other entries below the diagonal, which are wrong (`C104_mvlognormal_cov_violated`). -/
theorem C104_mvlognormal_cov_partial (h : MvNormal.new mu S = .ok d) (hm : ∀ i, (mu i).Is (m i)) (hS : ∀ i j, (S i j).Is (M i j))
    (hM : M.PosDef) (i j : Fin n) :
    (∃ c, (MvLogNormal.covariance d.mu d.covariance i j).Is c ∧
      HasCovM (expLaw (multivariateGaussian (WithLp.toLp 2 m) M)) (fun y => y i) (fun y => y j) c) ↔
    (i ≤ j ∨ M i j = 0 ∨ HasCovM (expLaw (multivariateGaussian (WithLp.toLp 2 m) M)) (fun y => y j) (fun y => y j) (M j j)) := by
  obtain ⟨-, rfl⟩ := MvNormal.new_ok.1 h
  have hc : (MvLogNormal.covariance mu S i j).Is (lnEntry m M i j) := lncov_is hm hS i j
  have hcov := (expGauss_moments m hM).2
  have hvar : HasCovM (expLaw (multivariateGaussian (WithLp.toLp 2 m) M)) (fun y => y j) (fun y => y j) (M j j) ↔
      Real.exp (m j + m j + (M j j + M j j) / 2) * (Real.exp (M j j) - 1) = M j j :=
    ⟨fun hh => (hcov j j).unique hh, fun hh => by have := hcov j j; rwa [hh] at this⟩
  have key : (∃ c, (MvLogNormal.covariance mu S i j).Is c ∧
      HasCovM (expLaw (multivariateGaussian (WithLp.toLp 2 m) M)) (fun y => y i) (fun y => y j) c) ↔
      lnEntry m M i j = Real.exp (m i + m j + (M i i + M j j) / 2) * (Real.exp (M i j) - 1) := by
    constructor
    · rintro ⟨c, h1, h2⟩
      rw [hc.eq h1, h2.unique (hcov i j)]
    · intro e
      exact ⟨_, hc, by rw [e]; exact hcov i j⟩
  refine key.trans ((lnEntry_iff m M i j).trans ?_)
  rw [hvar]
  constructor
  · intro hh
    rcases le_or_gt i j with hij | hij
    · exact Or.inl hij
    · exact Or.inr (hh hij)
  · rintro (hh | hh) hlt
    · exact absurd hlt (not_lt.2 hh)
    · exact hh

/-- C104 (partial, general covariance), in the cases where it is right: on and above the diagonal -/
theorem C104_mvlognormal_cov_upper_partial (h : MvNormal.new mu S = .ok d) (hm : ∀ i, (mu i).Is (m i)) (hS : ∀ i j, (S i j).Is (M i j))
    (hM : M.PosDef) {i j : Fin n} (hij : i ≤ j) :
    ∃ c, (MvLogNormal.covariance d.mu d.covariance i j).Is c ∧
      HasCovM (expLaw (multivariateGaussian (WithLp.toLp 2 m) M)) (fun y => y i) (fun y => y j) c :=
  (C104_mvlognormal_cov_partial h hm hS hM i j).2 (Or.inl hij)

/-- C104 (violated, general covariance): whenever coordinates `j < i` are correlated and the mean of coordinate `j` is
nonnegative, the entry `(i, j)` is not the covariance, and the matrix returned is not symmetric. -/
theorem C104_mvlognormal_cov_violated (h : MvNormal.new mu S = .ok d) (hm : ∀ i, (mu i).Is (m i)) (hS : ∀ i j, (S i j).Is (M i j))
    (hM : M.PosDef) {i j : Fin n} (hji : j < i) (hne : M i j ≠ 0) (hmj : 0 ≤ m j) :
    (∀ c, (MvLogNormal.covariance d.mu d.covariance i j).Is c →
      ¬ HasCovM (expLaw (multivariateGaussian (WithLp.toLp 2 m) M)) (fun y => y i) (fun y => y j) c) ∧
    ∃ c c', (MvLogNormal.covariance d.mu d.covariance i j).Is c ∧ (MvLogNormal.covariance d.mu d.covariance j i).Is c' ∧ c ≠ c' := by
  have hcov := (expGauss_moments m hM).2
  have hjj : 0 < M j j := hM.diag_pos
  have hbig : M j j < Real.exp (m j + m j + (M j j + M j j) / 2) * (Real.exp (M j j) - 1) := by
    have h1 : 1 < Real.exp (m j + m j + (M j j + M j j) / 2) := Real.one_lt_exp_iff.2 (by linarith)
    have h2 : M j j ≤ Real.exp (M j j) - 1 := by linarith [Real.add_one_le_exp (M j j)]
    nlinarith
  have hnot : ¬ ∃ c, (MvLogNormal.covariance d.mu d.covariance i j).Is c ∧
      HasCovM (expLaw (multivariateGaussian (WithLp.toLp 2 m) M)) (fun y => y i) (fun y => y j) c := by
    rw [C104_mvlognormal_cov_partial h hm hS hM i j]
    rintro (h1 | h1 | h1)
    · exact absurd hji (not_lt.2 h1)
    · exact hne h1
    · exact hbig.ne' ((hcov j j).unique h1)
  refine ⟨fun c hc hh => hnot ⟨c, hc, hh⟩, ?_⟩
  obtain ⟨c', hc', hh'⟩ := C104_mvlognormal_cov_upper_partial h hm hS hM hji.le
  have hmu : d.mu = mu ∧ d.covariance = S := by obtain ⟨-, rfl⟩ := MvNormal.new_ok.1 h; exact ⟨rfl, rfl⟩
  have hc : (MvLogNormal.covariance d.mu d.covariance i j).Is (lnEntry m M i j) := by rw [hmu.1, hmu.2]; exact lncov_is hm hS i j
  refine ⟨_, c', hc, hc', fun e => hnot ⟨c', by rw [← e]; exact hc, ?_⟩⟩
  obtain ⟨a, b, h1, h2, h3, h4, h5, h6⟩ := hh'
  refine ⟨b, a, h2, h1, h4, h3, ?_, ?_⟩
  · refine h5.congr (Filter.Eventually.of_forall fun y => mul_comm _ _)
  · rw [← h6]; exact integral_congr_ae (Filter.Eventually.of_forall fun y => mul_comm _ _)

/-! ### C188: mean and variance -/

/-- C188 (general covariance): `mean()` and `variance()` are the mean and the variance of each coordinate of the exponential
of the Gaussian -/
theorem C188_mvlognormal_moments (h : MvNormal.new mu S = .ok d) (hm : ∀ i, (mu i).Is (m i)) (hS : ∀ i j, (S i j).Is (M i j))
    (hM : M.PosDef) (i : Fin n) :
    (∃ a, (MvLogNormal.mean d.mu d.variance i).Is a ∧
      Integrable (fun y => y i) (expLaw (multivariateGaussian (WithLp.toLp 2 m) M)) ∧
      ∫ y, y i ∂(expLaw (multivariateGaussian (WithLp.toLp 2 m) M)) = a) ∧
    ∃ v, (MvLogNormal.variance d.mu d.variance i).Is v ∧
      HasCovM (expLaw (multivariateGaussian (WithLp.toLp 2 m) M)) (fun y => y i) (fun y => y i) v := by
  obtain ⟨-, rfl⟩ := MvNormal.new_ok.1 h
  obtain ⟨h1, h2⟩ := expGauss_moments m hM
  exact ⟨⟨_, lnmean_is (hm i) (hS i i), h1 i⟩, _, lnvar_is (hm i) (hS i i), h2 i i⟩
end

section
variable [FP] [FP.Exact] {n : ℕ} {mu S : Fin n → F64} {m v : Fin n → ℝ} {d : DiagNormal n}

/-- C104 and C188 (diagonal covariance): mean, variance and every entry of the covariance matrix are right -/
theorem C104_diag_lognormal_cov (h : DiagNormal.new mu S = .ok d) (hm : ∀ i, (mu i).Is (m i)) (hS : ∀ i, (S i).Is (v i))
    (i j : Fin n) :
    ∃ c, (MvLogNormal.covariance d.mu d.covariance i j).Is c ∧
      HasCovM (expLaw (multivariateGaussian (WithLp.toLp 2 m) (diagonal v))) (fun y => y i) (fun y => y j) c := by
  obtain ⟨hv, hmu, hs, -⟩ := diag_facts h hS
  have hcv : ∀ i j, (d.covariance i j).Is (diagonal v i j) := (C52_diag_entropy_moments h hm hS).2.2.1
  have hc := lncov_is (mu := d.mu) (S := d.covariance) (by rwa [hmu]) hcv i j
  refine ⟨_, hc, ?_⟩
  have := (expGauss_moments m (diag_posDef h hS)).2 i j
  rwa [← (lnEntry_iff m (diagonal v) i j).2 fun hji => Or.inl (diagonal_apply_ne _ hji.ne')] at this

/-- C188 (diagonal covariance) -/
theorem C188_diag_lognormal_moments (h : DiagNormal.new mu S = .ok d) (hm : ∀ i, (mu i).Is (m i)) (hS : ∀ i, (S i).Is (v i))
    (i : Fin n) :
    (∃ a, (MvLogNormal.mean d.mu d.variance i).Is a ∧
      Integrable (fun y => y i) (expLaw (multivariateGaussian (WithLp.toLp 2 m) (diagonal v))) ∧
      ∫ y, y i ∂(expLaw (multivariateGaussian (WithLp.toLp 2 m) (diagonal v))) = a) ∧
    ∃ w, (MvLogNormal.variance d.mu d.variance i).Is w ∧
      HasCovM (expLaw (multivariateGaussian (WithLp.toLp 2 m) (diagonal v))) (fun y => y i) (fun y => y i) w := by
  obtain ⟨hv, hmu, hs, -⟩ := diag_facts h hS
  obtain ⟨h1, h2⟩ := expGauss_moments m (diag_posDef h hS)
  have h1 := h1 i
  have h2 := h2 i i
  rw [diagonal_apply_eq] at h1 h2
  have hmi : (d.mu i).Is (m i) := by rw [hmu]; exact hm i
  exact ⟨⟨_, lnmean_is hmi (hs i), h1⟩, _, lnvar_is hmi (hs i), h2⟩
end

section
variable [FP] [FP.Exact] {n : ℕ} {mu : Fin n → F64} {S : F64} {m : Fin n → ℝ} {v : ℝ} {d : IsoNormal n}

/-- C104 (isotropic covariance): every entry of the covariance matrix is right -/
theorem C104_iso_lognormal_cov (h : IsoNormal.new mu S = .ok d) (hm : ∀ i, (mu i).Is (m i)) (hS : S.Is v) (i j : Fin n) :
    ∃ c, (MvLogNormal.covariance d.mu d.covariance i j).Is c ∧
      HasCovM (expLaw (multivariateGaussian (WithLp.toLp 2 m) (diagonal fun _ => v))) (fun y => y i) (fun y => y j) c := by
  obtain ⟨hv, hmu, hs, -⟩ := iso_facts h hS
  have hpd : (diagonal fun _ : Fin n => v).PosDef := PosDef.diagonal fun _ => hv
  have hcv : ∀ i j, (d.covariance i j).Is ((diagonal fun _ => v) i j) := (C52_iso_entropy_moments h hm hS).2.2.1
  have hc := lncov_is (mu := d.mu) (S := d.covariance) (by rwa [hmu]) hcv i j
  refine ⟨_, hc, ?_⟩
  have := (expGauss_moments m hpd).2 i j
  rwa [← (lnEntry_iff m (diagonal fun _ => v) i j).2 fun hji => Or.inl (diagonal_apply_ne _ hji.ne')] at this

/-- C188 (isotropic covariance) -/
theorem C188_iso_lognormal_moments (h : IsoNormal.new mu S = .ok d) (hm : ∀ i, (mu i).Is (m i)) (hS : S.Is v) (i : Fin n) :
    (∃ a, (MvLogNormal.mean d.mu d.variance i).Is a ∧
      Integrable (fun y => y i) (expLaw (multivariateGaussian (WithLp.toLp 2 m) (diagonal fun _ => v))) ∧
      ∫ y, y i ∂(expLaw (multivariateGaussian (WithLp.toLp 2 m) (diagonal fun _ => v))) = a) ∧
    ∃ w, (MvLogNormal.variance d.mu d.variance i).Is w ∧
      HasCovM (expLaw (multivariateGaussian (WithLp.toLp 2 m) (diagonal fun _ => v))) (fun y => y i) (fun y => y i) w := by
  obtain ⟨hv, hmu, hs, -⟩ := iso_facts h hS
  have hpd : (diagonal fun _ : Fin n => v).PosDef := PosDef.diagonal fun _ => hv
  obtain ⟨h1, h2⟩ := expGauss_moments m hpd
  have h1 := h1 i
  have h2 := h2 i i
  rw [diagonal_apply_eq] at h1 h2
  have hmi : (d.mu i).Is (m i) := by rw [hmu]; exact hm i
  exact ⟨⟨_, lnmean_is hmi hs, h1⟩, _, lnvar_is hmi hs, h2⟩
end

/-! ### C189: densities -/

/-- the exponential of a Gaussian vector has density `g(ln y) / ∏ y` on the positive orthant -/
theorem expGauss_density {n : ℕ} (m : Fin n → ℝ) {M : Matrix (Fin n) (Fin n) ℝ} (hM : M.PosDef) :
    expLaw (multivariateGaussian (WithLp.toLp 2 m) M) =
      volume.withDensity fun y => ENNReal.ofReal (expVecPDF (mvGaussianPDF m M) y) := by
  obtain ⟨L, h, hL⟩ := root_of_posDef hM
  exact expLaw_density m h hL (affine_law m L M h)

/-- on exponentials the density reads `g(s) exp(-Σ s)` -/
theorem expVecPDF_exp {n : ℕ} (g : (Fin n → ℝ) → ℝ) (s : Fin n → ℝ) :
    expVecPDF g (fun i => Real.exp (s i)) = g s * Real.exp (-∑ i, s i) := by
  unfold expVecPDF
  rw [if_pos fun i => Real.exp_pos _]
  simp only [Real.log_exp]
  rw [← Real.exp_sum, Real.exp_neg, div_eq_mul_inv]

theorem expVecPDF_gauss {n : ℕ} (m : Fin n → ℝ) (M : Matrix (Fin n) (Fin n) ℝ) (s : Fin n → ℝ) :
    expVecPDF (mvGaussianPDF m M) (fun i => Real.exp (s i)) =
      Real.exp (-((s - m) ⬝ᵥ (M⁻¹ *ᵥ (s - m))) / 2 - ∑ i, s i) / √((2 * π) ^ n * M.det) := by
  rw [expVecPDF_exp, mvGaussianPDF, sub_eq_add_neg (_ / 2), Real.exp_add]; ring

section
variable [FP] [FP.Exact] {n : ℕ}

theorem ln_exp_is {s : Fin n → ℝ} (i : Fin n) : ((fin (Real.exp (s i))).ln).Is (s i) := by
  have := (Is.fin (Real.exp (s i))).ln (Real.exp_pos _)
  rwa [Real.log_exp] at this

variable [Lapack] [Lapack.Exact] {mu : Fin n → F64} {S : Fin n → Fin n → F64} {m : Fin n → ℝ}
  {M : Matrix (Fin n) (Fin n) ℝ} {d : MvNormal n}

/-- C189 (violated, general covariance): in every positive dimension and for every mean and covariance there is a point with
positive coordinates at which `pdf` is not the density of the law. -/
theorem C189_mvlognormal_pdf_violated (hn : 0 < n) (h : MvNormal.new mu S = .ok d) (hm : ∀ i, (mu i).Is (m i))
    (hS : ∀ i j, (S i j).Is (M i j)) (hM : M.PosDef) :
    expLaw (multivariateGaussian (WithLp.toLp 2 m) M) =
      volume.withDensity (fun y => ENNReal.ofReal (expVecPDF (mvGaussianPDF m M) y)) ∧
    ∃ (x : Fin n → F64) (t : Fin n → ℝ), (∀ i, (x i).Is (t i)) ∧ (∀ i, 0 < t i) ∧
      ¬ (MvLogNormal.pdf d.pdf x).Is (expVecPDF (mvGaussianPDF m M) t) := by
  refine ⟨expGauss_density m hM, ?_⟩
  by_contra hcon
  push Not at hcon
  obtain ⟨L, -, -, -, -, hdet, -⟩ := mv_facts h hS hM
  have hpos : 0 < √((2 * π) ^ n * M.det) := Real.sqrt_pos.2 (mul_pos (by positivity) hM.det_pos)
  have key : ∀ s : Fin n → ℝ, (∑ i, (m i - s i) * ∑ j, if j ≤ i then M⁻¹ i j * (m j - s j) else 0) =
      (s - m) ⬝ᵥ (M⁻¹ *ᵥ (s - m)) + 2 * ∑ i, s i := fun s => by
    have h1 := hcon (fun i => fin (Real.exp (s i))) (fun i => Real.exp (s i)) (fun i => Is.fin _) fun i => Real.exp_pos _
    have h2 : (MvLogNormal.pdf d.pdf fun i => fin (Real.exp (s i))).Is _ :=
      mvPdf_is (mv_mahalanobis_is h hm hS hM fun i => ln_exp_is (s := s) i) hdet hM.det_pos
    have e := h1.eq h2
    rw [expVecPDF_gauss, div_left_inj' hpos.ne', Real.exp_eq_exp] at e
    linarith
  let e0 : Fin n → ℝ := fun i => if i = ⟨0, hn⟩ then 1 else 0
  have k1 := key (m + e0)
  have k2 := key (m - e0)
  have s1 : ∑ i, (m + e0) i = (∑ i, m i) + 1 := by simp [Finset.sum_add_distrib, e0]
  have s2 : ∑ i, (m - e0) i = (∑ i, m i) - 1 := by simp [Finset.sum_sub_distrib, e0]
  rw [s1] at k1
  rw [s2] at k2
  have q : (m - e0 - m) ⬝ᵥ (M⁻¹ *ᵥ (m - e0 - m)) = (m + e0 - m) ⬝ᵥ (M⁻¹ *ᵥ (m + e0 - m)) := by
    rw [show m - e0 - m = -(m + e0 - m) by ring, mulVec_neg, neg_dotProduct_neg]
  have q' : (∑ i, (m i - (m - e0) i) * ∑ j, if j ≤ i then M⁻¹ i j * (m j - (m - e0) j) else 0) =
      ∑ i, (m i - (m + e0) i) * ∑ j, if j ≤ i then M⁻¹ i j * (m j - (m + e0) j) else 0 := by
    refine Finset.sum_congr rfl fun i _ => ?_
    rw [Finset.mul_sum, Finset.mul_sum]
    refine Finset.sum_congr rfl fun j _ => ?_
    split_ifs
    · simp only [Pi.sub_apply, Pi.add_apply]; ring
    · simp
  rw [q, q'] at k2
  linarith

/-- C189 (partial, general covariance): for uncorrelated coordinates `pdf` is the Gaussian density at `ln x`, so it is the
density of the law exactly where the product of the coordinates is 1. Missing: everywhere else, where the factor `1/∏x` is
left out, and correlated coordinates. -/
theorem C189_mvlognormal_pdf_partial (h : MvNormal.new mu S = .ok d) (hm : ∀ i, (mu i).Is (m i))
    (hS : ∀ i j, (S i j).Is (M i j)) (hM : M.PosDef) (hdiag : ∀ i j, i ≠ j → M⁻¹ i j = 0)
    {x : Fin n → F64} {t : Fin n → ℝ} (hx : ∀ i, (x i).Is (t i)) (ht : ∀ i, 0 < t i) :
    (MvLogNormal.pdf d.pdf x).Is (mvGaussianPDF m M fun i => Real.log (t i)) ∧
    ((MvLogNormal.pdf d.pdf x).Is (expVecPDF (mvGaussianPDF m M) t) ↔ ∏ i, t i = 1) := by
  have h1 : (MvLogNormal.pdf d.pdf x).Is (mvGaussianPDF m M fun i => Real.log (t i)) :=
    (C105_mv_pdf_partial h hm hS hM hdiag).1 _ _ fun i => (hx i).ln (ht i)
  refine ⟨h1, ?_⟩
  have hp : 0 < ∏ i, t i := Finset.prod_pos fun i _ => ht i
  have hg := (mvGaussian_total m hM).1 fun i => Real.log (t i)
  unfold expVecPDF
  rw [if_pos ht]
  constructor
  · intro hc
    have e := h1.eq hc
    rw [eq_div_iff hp.ne'] at e
    exact (mul_eq_left₀ hg.ne').1 e
  · intro e; rw [e, div_one]; exact h1
end

section
variable [FP] [FP.Exact] {n : ℕ} {mu S : Fin n → F64} {m v : Fin n → ℝ} {d : DiagNormal n}

theorem diag_quad (v s m : Fin n → ℝ) (hv : ∀ i, 0 < v i) :
    (s - m) ⬝ᵥ ((diagonal v)⁻¹ *ᵥ (s - m)) = ∑ i, (s i - m i) ^ 2 / v i := by
  have hi : (diagonal v)⁻¹ = diagonal fun i => (v i)⁻¹ := by
    refine Matrix.inv_eq_right_inv ?_
    rw [diagonal_mul_diagonal]
    have : (fun i => v i * (v i)⁻¹) = 1 := by ext i; exact mul_inv_cancel₀ (hv i).ne'
    rw [this]; exact diagonal_one
  rw [hi, dotProduct]
  refine Finset.sum_congr rfl fun i _ => ?_
  rw [mulVec_diagonal, Pi.sub_apply]; field_simp

/-- a linear function of one coordinate is not a quadratic one -/
theorem no_quad {n : ℕ} (hn : 0 < n) (m a b : Fin n → ℝ) (hb : ∀ i, 0 < b i)
    (key : ∀ s : Fin n → ℝ, ∑ i, (s i - m i) * a i = ∑ i, (s i - m i) ^ 2 / b i + 2 * ∑ i, s i) : False := by
  let e0 : Fin n → ℝ := fun i => if i = ⟨0, hn⟩ then 1 else 0
  have k0 := key m
  have k1 := key (m + e0)
  have k2 := key (m - e0)
  simp only [Pi.add_apply, Pi.sub_apply, add_sub_cancel_left, sub_self, zero_mul, Finset.sum_const_zero, sub_sub_cancel_left,
    Finset.sum_add_distrib, Finset.sum_sub_distrib, neg_mul, Finset.sum_neg_distrib, neg_sq] at k0 k1 k2
  simp only [e0, ite_pow, ite_mul, ite_div, one_mul, zero_mul, Finset.sum_ite_eq', Finset.sum_ite_eq, Finset.mem_univ, if_true, one_pow, ne_eq,
    OfNat.ofNat_ne_zero, not_false_eq_true, zero_pow, zero_div, Finset.sum_const_zero] at k0 k1 k2
  have := one_div_pos.2 (hb ⟨0, hn⟩)
  linarith

/-- C189 (violated, diagonal covariance): in every positive dimension and for all parameters there is a point with positive
coordinates at which `pdf` is not the density of the law. -/
theorem C189_diag_lognormal_pdf_violated (hn : 0 < n) (h : DiagNormal.new mu S = .ok d) (hm : ∀ i, (mu i).Is (m i))
    (hS : ∀ i, (S i).Is (v i)) :
    expLaw (multivariateGaussian (WithLp.toLp 2 m) (diagonal v)) =
      volume.withDensity (fun y => ENNReal.ofReal (expVecPDF (mvGaussianPDF m (diagonal v)) y)) ∧
    ∃ (x : Fin n → F64) (t : Fin n → ℝ), (∀ i, (x i).Is (t i)) ∧ (∀ i, 0 < t i) ∧
      ¬ (MvLogNormal.pdf d.pdf x).Is (expVecPDF (mvGaussianPDF m (diagonal v)) t) := by
  refine ⟨expGauss_density m (diag_posDef h hS), ?_⟩
  by_contra hcon
  push Not at hcon
  obtain ⟨hv, hmu, hs, -, hdet, -⟩ := diag_facts h hS
  have hD : 0 < ∏ i, v i := Finset.prod_pos fun i _ => hv i
  have hpos : 0 < √((2 * π) ^ n * ∏ i, v i) := Real.sqrt_pos.2 (mul_pos (by positivity) hD)
  refine no_quad hn m (fun i => 1 / v i * (1 / v i)) v hv fun s => ?_
  have h1 := hcon (fun i => fin (Real.exp (s i))) (fun i => Real.exp (s i)) (fun i => Is.fin _) fun i => Real.exp_pos _
  have h2 : (MvLogNormal.pdf d.pdf fun i => fin (Real.exp (s i))).Is _ :=
    mvPdf_is (diag_mahalanobis_is h hm hS fun i => ln_exp_is (s := s) i) hdet hD
  have e := h1.eq h2
  rw [expVecPDF_gauss, det_diagonal, div_left_inj' hpos.ne', Real.exp_eq_exp, diag_quad v s m hv] at e
  simp only [mul_assoc] at e
  linarith

/-- C189 (partial, diagonal covariance): the value is positive and finite wherever every coordinate is positive, and
depends on the point only through the logarithms. Missing: the density itself. -/
theorem C189_diag_lognormal_pdf_partial (h : DiagNormal.new mu S = .ok d) (hm : ∀ i, (mu i).Is (m i))
    (hS : ∀ i, (S i).Is (v i)) {x : Fin n → F64} {t : Fin n → ℝ} (hx : ∀ i, (x i).Is (t i)) (ht : ∀ i, 0 < t i) :
    ∃ p, (MvLogNormal.pdf d.pdf x).Is p ∧ 0 < p := by
  obtain ⟨hv, hmu, hs, -, hdet, -⟩ := diag_facts h hS
  have hD : 0 < ∏ i, v i := Finset.prod_pos fun i _ => hv i
  have hpos : 0 < √((2 * π) ^ n * ∏ i, v i) := Real.sqrt_pos.2 (mul_pos (by positivity) hD)
  exact ⟨_, mvPdf_is (diag_mahalanobis_is h hm hS fun i => (hx i).ln (ht i)) hdet hD, by positivity⟩
end

section
variable [FP] [FP.Exact] {n : ℕ} {mu : Fin n → F64} {S : F64} {m : Fin n → ℝ} {v : ℝ} {d : IsoNormal n}

/-- C189 (violated, isotropic covariance) -/
theorem C189_iso_lognormal_pdf_violated (hn : 0 < n) (h : IsoNormal.new mu S = .ok d) (hm : ∀ i, (mu i).Is (m i)) (hS : S.Is v) :
    expLaw (multivariateGaussian (WithLp.toLp 2 m) (diagonal fun _ => v)) =
      volume.withDensity (fun y => ENNReal.ofReal (expVecPDF (mvGaussianPDF m (diagonal fun _ => v)) y)) ∧
    ∃ (x : Fin n → F64) (t : Fin n → ℝ), (∀ i, (x i).Is (t i)) ∧ (∀ i, 0 < t i) ∧
      ¬ (MvLogNormal.pdf d.pdf x).Is (expVecPDF (mvGaussianPDF m (diagonal fun _ => v)) t) := by
  obtain ⟨hv, hmu, hs, -, hdet, -⟩ := iso_facts h hS
  have hpd : (diagonal fun _ : Fin n => v).PosDef := PosDef.diagonal fun _ => hv
  refine ⟨expGauss_density m hpd, ?_⟩
  by_contra hcon
  push Not at hcon
  have hD : 0 < v ^ n := by positivity
  have hdd : (diagonal fun _ : Fin n => v).det = v ^ n := by rw [det_diagonal]; simp
  have hpos : 0 < √((2 * π) ^ n * v ^ n) := Real.sqrt_pos.2 (mul_pos (by positivity) hD)
  refine no_quad hn m (fun i => 1 / v * (1 / v)) (fun _ => v) (fun _ => hv) fun s => ?_
  have h1 := hcon (fun i => fin (Real.exp (s i))) (fun i => Real.exp (s i)) (fun i => Is.fin _) fun i => Real.exp_pos _
  have h2 : (MvLogNormal.pdf d.pdf fun i => fin (Real.exp (s i))).Is _ :=
    mvPdf_is (iso_mahalanobis_is h hm hS fun i => ln_exp_is (s := s) i) hdet hD
  have e := h1.eq h2
  rw [expVecPDF_gauss, hdd, div_left_inj' hpos.ne', Real.exp_eq_exp, diag_quad (fun _ => v) s m fun _ => hv] at e
  simp only [mul_assoc] at e
  linarith
end

/-! ### C190: sampling -/

/-- C190: drawing a log-normal sample consumes exactly what drawing the normal one does and exponentiates each coordinate
of it, whatever the arithmetic -/
theorem C190_mvlognormal_sample_exp [FP] {n : ℕ} {σ : Type} (g : NormalRng σ) (s : σ) :
    (∀ d : MvNormal n, (MvLogNormal.sample (d.sample g s)).2 = g.stateAt s n ∧
      ∀ i, (MvLogNormal.sample (d.sample g s)).1 i = ((d.sample g s).1 i).exp) ∧
    (∀ d : DiagNormal n, (MvLogNormal.sample (d.sample g s)).2 = g.stateAt s n ∧
      ∀ i, (MvLogNormal.sample (d.sample g s)).1 i = ((d.sample g s).1 i).exp) ∧
    (∀ d : IsoNormal n, (MvLogNormal.sample (d.sample g s)).2 = g.stateAt s n ∧
      ∀ i, (MvLogNormal.sample (d.sample g s)).1 i = ((d.sample g s).1 i).exp) :=
  ⟨fun _ => ⟨rfl, fun _ => rfl⟩, fun _ => ⟨rfl, fun _ => rfl⟩, fun _ => ⟨rfl, fun _ => rfl⟩⟩

/-- the law of a vector-valued sampler, as a function of the standard normals it draws -/
def Spec.SamplesLaw {n : ℕ} (smp : ∀ {σ : Type}, NormalRng σ → σ → (Fin n → F64) × σ) (P : Measure (Fin n → ℝ)) : Prop :=
  ∃ T : (Fin n → ℝ) → Fin n → ℝ, Measurable T ∧
    (∀ {σ : Type} (g : NormalRng σ) (s : σ) (z : Fin n → ℝ), (∀ i : Fin n, (g.nth s i).Is (z i)) →
      ∀ i, ((smp g s).1 i).Is (T z i)) ∧
    (Measure.pi fun _ : Fin n => gaussianReal 0 1).map T = P

/-- a sampler affine in the normals, exponentiated, has the exponentiated Gaussian law -/
theorem samplesLaw_exp [FP] [FP.Exact] {n : ℕ} {smp : ∀ {σ : Type}, NormalRng σ → σ → (Fin n → F64) × σ} {m : Fin n → ℝ}
    {M : Matrix (Fin n) (Fin n) ℝ} (h : SamplesAffine smp m M) :
    SamplesLaw (fun g s => MvLogNormal.sample (smp g s)) (expLaw (multivariateGaussian (WithLp.toLp 2 m) M)) := by
  obtain ⟨A, hA, hs⟩ := h
  have hmeas : Measurable fun (x : EuclideanSpace ℝ (Fin n)) (i : Fin n) => Real.exp (x i) := by fun_prop
  have hmeas2 : Measurable fun z : Fin n → ℝ => (WithLp.toLp 2 (m + A *ᵥ z) : EuclideanSpace ℝ (Fin n)) := by fun_prop
  refine ⟨fun z i => Real.exp ((m + A *ᵥ z) i), hmeas.comp hmeas2, fun g s z hz i => (hs g s z hz i).exp, ?_⟩
  rw [expLaw, ← affine_law m A M hA, Measure.map_map hmeas hmeas2]; rfl

/-- the law of a sampler is unique -/
theorem Spec.SamplesLaw.unique {n : ℕ} {smp : ∀ {σ : Type}, NormalRng σ → σ → (Fin n → F64) × σ} {P Q : Measure (Fin n → ℝ)}
    (h : SamplesLaw smp P) (h' : SamplesLaw smp Q) : P = Q := by
  obtain ⟨T, -, hT, rfl⟩ := h
  obtain ⟨T', -, hT', rfl⟩ := h'
  congr 1
  funext z
  let zz : ℕ → F64 := fun k => if hk : k < n then fin (z ⟨k, hk⟩) else 0
  have hz : ∀ i : Fin n, ((scriptRng zz).nth 0 i).Is (z i) := by
    intro i; rw [script_nth]; simp only [zz, i.2, dif_pos]; exact Is.fin _
  ext i
  exact (hT (scriptRng zz) 0 z hz i).eq (hT' (scriptRng zz) 0 z hz i)

section
variable [FP] [FP.Exact] {n : ℕ}

/-- C190 (general covariance): for independent standard normal draws the samples have the law the moments describe -/
theorem C190_mvlognormal_sample_law [Lapack] [Lapack.Exact] {mu : Fin n → F64} {S : Fin n → Fin n → F64} {m : Fin n → ℝ}
    {M : Matrix (Fin n) (Fin n) ℝ} {d : MvNormal n} (h : MvNormal.new mu S = .ok d) (hm : ∀ i, (mu i).Is (m i))
    (hS : ∀ i j, (S i j).Is (M i j)) (hM : M.PosDef) :
    SamplesLaw (fun g s => MvLogNormal.sample (d.sample g s)) (expLaw (multivariateGaussian (WithLp.toLp 2 m) M)) :=
  samplesLaw_exp (C51_mv_sample h hm hS hM).1

theorem expGauss_diag_inj {m v w : Fin n → ℝ} (hv : ∀ i, 0 < v i) (hw : ∀ i, 0 < w i)
    (e : expLaw (multivariateGaussian (WithLp.toLp 2 m) (diagonal v)) = expLaw (multivariateGaussian (WithLp.toLp 2 m) (diagonal w))) : v = w := by
  funext i
  have h1 := ((expGauss_moments m (PosDef.diagonal hv)).1 i).2
  have h2 := ((expGauss_moments m (PosDef.diagonal hw)).1 i).2
  rw [e, h2, diagonal_apply_eq, diagonal_apply_eq, Real.exp_eq_exp] at h1
  linarith

/-- C190 (violated, diagonal covariance): unless every variance is 1, the samples do not have the law the moments describe -/
theorem C190_diag_lognormal_sample_violated {mu S : Fin n → F64} {m v : Fin n → ℝ} {d : DiagNormal n}
    (h : DiagNormal.new mu S = .ok d) (hm : ∀ i, (mu i).Is (m i)) (hS : ∀ i, (S i).Is (v i)) {i : Fin n} (hi : v i ≠ 1) :
    ¬ SamplesLaw (fun g s => MvLogNormal.sample (d.sample g s)) (expLaw (multivariateGaussian (WithLp.toLp 2 m) (diagonal v))) := by
  intro hc
  obtain ⟨hv, -⟩ := diag_facts h hS
  have e := hc.unique (samplesLaw_exp (C51_diag_sample_partial h hm hS).1)
  have := congrFun (expGauss_diag_inj hv (fun i => by have := hv i; positivity) e) i
  have hvi := hv i
  exact hi (mul_left_cancel₀ hvi.ne' (by linarith))

/-- C190 (partial, diagonal covariance): the samples have the law with every variance squared; right when all are 1 -/
theorem C190_diag_lognormal_sample_partial {mu S : Fin n → F64} {m v : Fin n → ℝ} {d : DiagNormal n}
    (h : DiagNormal.new mu S = .ok d) (hm : ∀ i, (mu i).Is (m i)) (hS : ∀ i, (S i).Is (v i)) :
    SamplesLaw (fun g s => MvLogNormal.sample (d.sample g s))
      (expLaw (multivariateGaussian (WithLp.toLp 2 m) (diagonal fun i => v i ^ 2))) :=
  samplesLaw_exp (C51_diag_sample_partial h hm hS).1

/-- C190 (violated, isotropic covariance) -/
theorem C190_iso_lognormal_sample_violated (hn : 0 < n) {mu : Fin n → F64} {S : F64} {m : Fin n → ℝ} {v : ℝ} {d : IsoNormal n}
    (h : IsoNormal.new mu S = .ok d) (hm : ∀ i, (mu i).Is (m i)) (hS : S.Is v) (hi : v ≠ 1) :
    ¬ SamplesLaw (fun g s => MvLogNormal.sample (d.sample g s))
      (expLaw (multivariateGaussian (WithLp.toLp 2 m) (diagonal fun _ => v))) := by
  intro hc
  obtain ⟨hv, -⟩ := iso_facts h hS
  have e := hc.unique (samplesLaw_exp (C51_iso_sample_partial h hm hS).1)
  have := congrFun (expGauss_diag_inj (fun _ => hv) (fun i => by positivity) e) ⟨0, hn⟩
  exact hi (mul_left_cancel₀ hv.ne' (by linarith))

/-- C190 (partial, isotropic covariance) -/
theorem C190_iso_lognormal_sample_partial {mu : Fin n → F64} {S : F64} {m : Fin n → ℝ} {v : ℝ} {d : IsoNormal n}
    (h : IsoNormal.new mu S = .ok d) (hm : ∀ i, (mu i).Is (m i)) (hS : S.Is v) :
    SamplesLaw (fun g s => MvLogNormal.sample (d.sample g s))
      (expLaw (multivariateGaussian (WithLp.toLp 2 m) (diagonal fun _ => v ^ 2))) :=
  samplesLaw_exp (C51_iso_sample_partial h hm hS).1
end

/-! ### non-vacuity -/
section
attribute [local instance] exactFP exactFP_exact exactLapack exactLapack_exact

/-- a correlated log-normal whose covariance matrix comes out asymmetric -/
example : ∃ (d : MvNormal 2) (M : Matrix (Fin 2) (Fin 2) ℝ),
    MvNormal.new (fun _ => fin 0) (fun i j => fin (M i j)) = .ok d ∧ M.PosDef ∧ M 1 0 ≠ 0 ∧
    ∃ c c', (MvLogNormal.covariance d.mu d.covariance 1 0).Is c ∧ (MvLogNormal.covariance d.mu d.covariance 0 1).Is c' ∧ c ≠ c' := by
  obtain ⟨d, hnew⟩ : ∃ d, MvNormal.new (n := 2) (fun _ => fin 0)
      (fun i j => fin ((!![2, 1; 1, 2] : Matrix (Fin 2) (Fin 2) ℝ) i j)) = .ok d := by
    refine ⟨_, MvNormal.new_ok.2 ⟨fun i j => ?_, rfl⟩⟩
    refine fin_le_fin.2 ?_
    fin_cases i <;> fin_cases j <;> simp
  refine ⟨_, !![2, 1; 1, 2], hnew, ex_posDef, by simp, ?_⟩
  exact (C104_mvlognormal_cov_violated (m := fun _ => 0) hnew (fun _ => Is.fin _) (fun _ _ => Is.fin _) ex_posDef (by decide)
    (by simp) le_rfl).2
end
end Rstat
