import Verif.Props.Normal2
import Verif.Lemmas.MvGaussian
import Mathlib.LinearAlgebra.Matrix.PosDef

/-! Properties C45 (multivariate), C50, C51, C52: normals with general, diagonal and isotropic covariance. -/
set_option linter.unusedSectionVars false
namespace Rstat
open F64 Consts Spec MeasureTheory ProbabilityTheory Real Set Matrix

/-! ### C45 -/
/-- C45: gradients of the general, diagonal and isotropic normals scale componentwise -/
theorem C45_mv_grad_mul [FP] {n : ℕ} (g : NGrad (Fin n → F64) (Fin n → Fin n → F64)) (s : F64) :
    (∀ i, (MvNormal.gradMul g s).mu i = g.mu i * s) ∧ ∀ i j, (MvNormal.gradMul g s).Sigma i j = g.Sigma i j * s :=
  ⟨fun _ => rfl, fun _ _ => rfl⟩
/-- C45: scaling a diagonal gradient scales every component -/
theorem C45_diag_grad_mul [FP] {n : ℕ} (g : NGrad (Fin n → F64) (Fin n → F64)) (s : F64) :
    (∀ i, (DiagNormal.gradMul g s).mu i = g.mu i * s) ∧ ∀ i, (DiagNormal.gradMul g s).Sigma i = g.Sigma i * s :=
  ⟨fun _ => rfl, fun _ => rfl⟩
/-- C45: scaling an isotropic gradient scales every component -/
theorem C45_iso_grad_mul [FP] {n : ℕ} (g : NGrad (Fin n → F64) F64) (s : F64) :
    (∀ i, (IsoNormal.gradMul g s).mu i = g.mu i * s) ∧ (IsoNormal.gradMul g s).Sigma = g.Sigma * s :=
  ⟨fun _ => rfl, rfl⟩

/-! ### constructors -/
theorem MvNormal.new_ok [FP] [Lapack] {n : ℕ} {mu : Fin n → F64} {S : Fin n → Fin n → F64} {d : MvNormal n} :
    MvNormal.new mu S = .ok d ↔ (∀ i j, 0 ≤ S i j) ∧ d = MvNormal.newUnchecked mu S := by
  have h : ∀ T, Covariance.matrix S = .ok T ↔ (∀ i j, 0 ≤ S i j) ∧ T = S := fun T =>
    (newE_ok (t := .arr n (.arr n Ty.f64)) _ S T).trans (by
      simp only [Cst.sat, Bool.and_eq_true, List.all_eq_true, List.mem_finRange, true_implies, decide_eq_true_eq]
      simp; exact fun _ => Iff.rfl)
  unfold MvNormal.new
  rw [exc_bind_ok]
  constructor
  · rintro ⟨T, hT, he⟩
    obtain ⟨h1, rfl⟩ := (h T).1 hT
    cases he; exact ⟨h1, rfl⟩
  · rintro ⟨h1, rfl⟩; exact ⟨S, (h S).2 ⟨h1, rfl⟩, rfl⟩

theorem DiagNormal.new_ok [FP] {n : ℕ} {mu S : Fin n → F64} {d : DiagNormal n} :
    DiagNormal.new mu S = .ok d ↔ (∀ i, 0 < S i) ∧ d = DiagNormal.newUnchecked mu S := by
  have h : ∀ T, Covariance.diagonal S = .ok T ↔ (∀ i, 0 < S i) ∧ T = S := fun T =>
    (newE_ok (t := .arr n Ty.f64) _ S T).trans (by
      simp only [Cst.sat, List.all_eq_true, List.mem_finRange, true_implies, decide_eq_true_eq]
      simp; exact fun _ => Iff.rfl)
  unfold DiagNormal.new
  rw [exc_bind_ok]
  constructor
  · rintro ⟨T, hT, he⟩
    obtain ⟨h1, rfl⟩ := (h T).1 hT
    cases he; exact ⟨h1, rfl⟩
  · rintro ⟨h1, rfl⟩; exact ⟨S, (h S).2 ⟨h1, rfl⟩, rfl⟩

theorem IsoNormal.new_ok [FP] {n : ℕ} {mu : Fin n → F64} {S : F64} {d : IsoNormal n} :
    IsoNormal.new mu S = .ok d ↔ 0 < S ∧ d = IsoNormal.newUnchecked mu S := by
  unfold IsoNormal.new
  simp only [exc_bind_ok, Covariance.isotropic_ok]
  constructor
  · rintro ⟨T, ⟨h1, rfl⟩, he⟩; cases he; exact ⟨h1, rfl⟩
  · rintro ⟨h1, rfl⟩; exact ⟨S, ⟨h1, rfl⟩, rfl⟩

theorem IsoNormal.homogeneous_ok [FP] {n : ℕ} {mu S : F64} {d : IsoNormal n} :
    IsoNormal.homogeneous n mu S = .ok d ↔ 0 < n ∧ 0 < S ∧ d = IsoNormal.newUnchecked (fun _ => mu) S := by
  unfold IsoNormal.homogeneous
  rw [exc_bind_ok]
  constructor
  · rintro ⟨k, hk, he⟩
    have := (newE_ok (t := .sc .usize) Cst.naturalU n k).1 hk
    simp only [Cst.sat, decide_eq_true_eq] at this
    exact ⟨this.1, IsoNormal.new_ok.1 he⟩
  · rintro ⟨h0, h1⟩
    exact ⟨n, (newE_ok (t := .sc .usize) Cst.naturalU n n).2 ⟨by simp only [Cst.sat, decide_eq_true_eq]; exact h0, rfl⟩,
      IsoNormal.new_ok.2 h1⟩

/-! ### evaluation of the linear algebra -/
section
variable [FP] [FP.Exact] {n : ℕ}

theorem sum_fin_is {f : Fin n → F64} {g : Fin n → ℝ} (h : ∀ i, (f i).Is (g i)) :
    (F64.sum ((List.finRange n).map f)).Is (∑ i, g i) := by
  rw [Fin.sum_univ_def]; exact Is.sum_map _ _ _ fun i _ => h i

theorem prod_fin_is {f : Fin n → F64} {g : Fin n → ℝ} (h : ∀ i, (f i).Is (g i)) :
    (F64.prod ((List.finRange n).map f)).Is (∏ i, g i) := by
  rw [Fin.prod_univ_def]; exact Is.prod (forall₂_map _ _ _ fun i _ => h i)

theorem sum_filter {α : Type*} (p : α → Prop) [DecidablePred p] (g : α → ℝ) (l : List α) :
    ((l.filter fun j => p j).map g).sum = (l.map fun j => if p j then g j else 0).sum := by
  induction l with
  | nil => rfl
  | cons a l ih =>
    by_cases h : p a
    · rw [List.filter_cons_of_pos (by simpa using h)]; simp [h, ih]
    · rw [List.filter_cons_of_neg (by simpa using h)]; simp [h, ih]

theorem mvMult_is {A : Fin n → Fin n → F64} {M : Matrix (Fin n) (Fin n) ℝ} {v : Fin n → F64} {w : Fin n → ℝ}
    (hA : ∀ i j, (A i j).Is (M i j)) (hv : ∀ i, (v i).Is (w i)) (i : Fin n) :
    (mvMult A v i).Is (∑ j, if j ≤ i then M i j * w j else 0) := by
  unfold mvMult
  refine (Is.sum_map _ _ (fun j => M i j * w j) fun j _ => (hA i j).mul (hv j)).congr ?_
  rw [Fin.sum_univ_def]; exact sum_filter (fun j => j ≤ i) _ _

variable [Lapack] [Lapack.Exact] {mu : Fin n → F64} {S : Fin n → Fin n → F64} {m : Fin n → ℝ}
  {M : Matrix (Fin n) (Fin n) ℝ} {d : MvNormal n}

theorem mv_facts (h : MvNormal.new mu S = .ok d) (hS : ∀ i j, (S i j).Is (M i j)) (hM : M.PosDef) :
    ∃ L : Matrix (Fin n) (Fin n) ℝ, (∀ i j, i < j → L i j = 0) ∧ (∀ i, 0 < L i i) ∧ L * Lᵀ = M ∧
      (∀ i j, (d.lt i j).Is (L i j)) ∧ d.det.Is M.det ∧ ∀ i j, (d.precision i j).Is (M⁻¹ i j) := by
  obtain ⟨-, rfl⟩ := MvNormal.new_ok.1 h
  obtain ⟨L, h0, h1, h2, h3⟩ := Lapack.Exact.potrf_eq hM fun i j _ => hS i j
  have hlt : ∀ i j, (cholesky S i j).Is (L i j) := by
    intro i j
    unfold cholesky
    split_ifs with hij
    · rw [h0 i j hij]; exact Is.zero
    · exact h3 i j (not_lt.1 hij)
  have hdet : M.det = (∏ i, L i i) ^ 2 := by
    rw [← h2, det_mul, det_transpose, det_of_lowerTriangular L (fun i j hij => h0 i j hij), sq]
  refine ⟨L, h0, h1, h2, hlt, ?_, ?_⟩
  · rw [hdet]; exact (prod_fin_is fun i => hlt i i).powi2
  · intro i j
    have hinv : M⁻¹ = (L⁻¹)ᵀ * L⁻¹ := by
      rw [← h2, Matrix.mul_inv_rev, ← Matrix.transpose_nonsing_inv]
    rw [hinv, mul_apply]
    exact sum_fin_is fun k =>
      (Lapack.Exact.trtri_eq h0 (fun i => (h1 i).ne') hlt k i).mul (Lapack.Exact.trtri_eq h0 (fun i => (h1 i).ne') hlt k j)

/-! ### C50 -/

/-- what `d_mahalanobis_squared` of a general normal really computes: only the lower triangle of the precision enters -/
theorem mv_mahalanobis_is (h : MvNormal.new mu S = .ok d) (hm : ∀ i, (mu i).Is (m i)) (hS : ∀ i j, (S i j).Is (M i j))
    (hM : M.PosDef) {x : Fin n → F64} {t : Fin n → ℝ} (hx : ∀ i, (x i).Is (t i)) :
    (d.dMahalanobisSquared x).Is (∑ i, (m i - t i) * ∑ j, if j ≤ i then M⁻¹ i j * (m j - t j) else 0) := by
  obtain ⟨L, -, -, -, -, -, hp⟩ := mv_facts h hS hM
  have hmu : d.mu = mu := by obtain ⟨-, rfl⟩ := MvNormal.new_ok.1 h; rfl
  unfold MvNormal.dMahalanobisSquared
  dsimp only
  rw [hmu]
  exact sum_fin_is fun i => ((hm i).sub (hx i)).mul (mvMult_is hp (fun j => (hm j).sub (hx j)) i)

theorem quad_split (P : Matrix (Fin n) (Fin n) ℝ) (z : Fin n → ℝ) :
    z ⬝ᵥ (P *ᵥ z) = (∑ i, z i * ∑ j, if j ≤ i then P i j * z j else 0) + ∑ i, ∑ j, if i < j then P i j * z i * z j else 0 := by
  simp only [dotProduct, mulVec]
  rw [← Finset.sum_add_distrib]
  refine Finset.sum_congr rfl fun i _ => ?_
  rw [Finset.mul_sum, Finset.mul_sum, ← Finset.sum_add_distrib]
  refine Finset.sum_congr rfl fun j _ => ?_
  by_cases hij : j ≤ i
  · rw [if_pos hij, if_neg (not_lt.2 hij), add_zero]
  · rw [if_neg hij, if_pos (not_le.1 hij)]; ring

/-- C50 (violated, general covariance): whenever some off-diagonal entry of the inverse covariance is nonzero there is an
`x` at which the returned value is not `(x-μ)ᵀ Σ⁻¹ (x-μ)`. -/
theorem C50_mv_mahalanobis_violated (h : MvNormal.new mu S = .ok d) (hm : ∀ i, (mu i).Is (m i))
    (hS : ∀ i j, (S i j).Is (M i j)) (hM : M.PosDef) {i j : Fin n} (hij : i ≠ j) (hne : M⁻¹ i j ≠ 0) :
    ∃ (x : Fin n → F64) (t : Fin n → ℝ), (∀ i, (x i).Is (t i)) ∧
      ¬ (d.dMahalanobisSquared x).Is ((t - m) ⬝ᵥ (M⁻¹ *ᵥ (t - m))) := by
  wlog hlt : i < j generalizing i j
  · refine this hij.symm ?_ (lt_of_le_of_ne (not_lt.1 hlt) hij.symm)
    have hs : (M⁻¹).IsHermitian := hM.inv.isHermitian
    have := hs.apply i j
    simp only [star_trivial] at this
    rwa [this]
  let t : Fin n → ℝ := fun k => m k - (if k = i then 1 else 0) - (if k = j then 1 else 0)
  refine ⟨fun k => fin (t k), t, fun k => Is.fin _, fun hc => ?_⟩
  have e := hc.eq (mv_mahalanobis_is h hm hS hM (t := t) fun k => Is.fin _)
  have q := quad_split M⁻¹ (m - t)
  have sgn : (t - m) ⬝ᵥ (M⁻¹ *ᵥ (t - m)) = (m - t) ⬝ᵥ (M⁻¹ *ᵥ (m - t)) := by
    rw [← neg_sub m t, mulVec_neg, neg_dotProduct_neg]
  rw [sgn, q] at e
  have z0 : ∑ a, ∑ b, (if a < b then M⁻¹ a b * (m - t) a * (m - t) b else 0) = 0 := by
    have : ∀ a, (m - t) a = m a - t a := fun a => rfl
    simp only [this] at e ⊢
    linarith
  have z1 : ∑ a, ∑ b, (if a < b then M⁻¹ a b * (m - t) a * (m - t) b else 0) = M⁻¹ i j := by
    have hz : ∀ a, (m - t) a = (if a = i then 1 else 0) + (if a = j then 1 else 0) := by
      intro a; simp only [Pi.sub_apply, t]; ring
    rw [Finset.sum_eq_single i, Finset.sum_eq_single j]
    · rw [if_pos hlt, hz, hz]; simp [hij, hij.symm]
    · intro b _ hb
      split_ifs with hib
      · rw [hz b, if_neg hb, if_neg (by rintro rfl; exact absurd hib (lt_irrefl _))]; ring
      · rfl
    · simp
    · intro a _ ha
      refine Finset.sum_eq_zero fun b _ => ?_
      split_ifs with hab
      · by_cases haj : a = j
        · have hbi : b ≠ i := by rintro rfl; exact absurd (hlt.trans (haj ▸ hab)) (lt_irrefl _)
          have hbj : b ≠ j := by rintro rfl; exact absurd hab (by rw [haj]; exact lt_irrefl _)
          rw [hz b, if_neg hbi, if_neg hbj]; ring
        · rw [hz a, if_neg ha, if_neg haj]; ring
      · rfl
    · simp
  exact hne (z1.symm.trans z0)

/-- C50 (partial, general covariance): the distance is right when the inverse covariance is diagonal (equivalently, the
coordinates are uncorrelated). Missing: correlated coordinates, where it is wrong. -/
theorem C50_mv_mahalanobis_partial (h : MvNormal.new mu S = .ok d) (hm : ∀ i, (mu i).Is (m i))
    (hS : ∀ i j, (S i j).Is (M i j)) (hM : M.PosDef) (hdiag : ∀ i j, i ≠ j → M⁻¹ i j = 0)
    {x : Fin n → F64} {t : Fin n → ℝ} (hx : ∀ i, (x i).Is (t i)) :
    (d.dMahalanobisSquared x).Is ((t - m) ⬝ᵥ (M⁻¹ *ᵥ (t - m))) := by
  refine (mv_mahalanobis_is h hm hS hM hx).congr ?_
  have sgn : (t - m) ⬝ᵥ (M⁻¹ *ᵥ (t - m)) = (m - t) ⬝ᵥ (M⁻¹ *ᵥ (m - t)) := by
    rw [← neg_sub m t, mulVec_neg, neg_dotProduct_neg]
  rw [sgn, quad_split]
  have : ∑ a, ∑ b, (if a < b then M⁻¹ a b * (m - t) a * (m - t) b else 0) = 0 := by
    refine Finset.sum_eq_zero fun a _ => Finset.sum_eq_zero fun b _ => ?_
    split_ifs with hab
    · rw [hdiag a b hab.ne]; ring
    · rfl
  rw [this, add_zero]; rfl

end

section
variable [FP] [FP.Exact] {n : ℕ} {mu S : Fin n → F64} {m v : Fin n → ℝ} {d : DiagNormal n}

theorem diag_facts (h : DiagNormal.new mu S = .ok d) (hS : ∀ i, (S i).Is (v i)) :
    (∀ i, 0 < v i) ∧ d.mu = mu ∧ (∀ i, (d.Sigma i).Is (v i)) ∧ (∀ i, (d.lt i).Is (v i)) ∧ d.det.Is (∏ i, v i) ∧
      ∀ i, (d.precision i).Is (1 / v i) := by
  obtain ⟨hp, rfl⟩ := DiagNormal.new_ok.1 h
  have hv : ∀ i, 0 < v i := fun i => pos_of_lt (hp i) (hS i)
  exact ⟨hv, rfl, hS, hS, prod_fin_is hS, fun i => Is.one.div (hS i) (hv i).ne'⟩

theorem diag_mahalanobis_is (h : DiagNormal.new mu S = .ok d) (hm : ∀ i, (mu i).Is (m i)) (hS : ∀ i, (S i).Is (v i))
    {x : Fin n → F64} {t : Fin n → ℝ} (hx : ∀ i, (x i).Is (t i)) :
    (d.dMahalanobisSquared x).Is (∑ i, (t i - m i) * (1 / v i) * (1 / v i)) := by
  obtain ⟨-, hmu, -, -, -, hp⟩ := diag_facts h hS
  unfold DiagNormal.dMahalanobisSquared
  rw [hmu]
  exact sum_fin_is fun i => (((hx i).sub (hm i)).mul (hp i)).mul (hp i)

/-- C50 (violated, diagonal covariance): in every positive dimension the "squared distance" is even negative at some
points, hence not `Σ (x_i-μ_i)²/v_i`. -/
theorem C50_diag_mahalanobis_violated (hn : 0 < n) (h : DiagNormal.new mu S = .ok d) (hm : ∀ i, (mu i).Is (m i))
    (hS : ∀ i, (S i).Is (v i)) :
    ∃ (x : Fin n → F64) (t : Fin n → ℝ), (∀ i, (x i).Is (t i)) ∧
      (∃ r, (d.dMahalanobisSquared x).Is r ∧ r < 0) ∧
      ¬ (d.dMahalanobisSquared x).Is ((t - m) ⬝ᵥ ((diagonal v)⁻¹ *ᵥ (t - m))) := by
  obtain ⟨hv, -⟩ := diag_facts h hS
  let t : Fin n → ℝ := fun k => m k - 1
  have hr := diag_mahalanobis_is h hm hS (t := t) (x := fun k => fin (t k)) fun k => Is.fin _
  have hneg : ∑ i, (t i - m i) * (1 / v i) * (1 / v i) < 0 := by
    have : Nonempty (Fin n) := ⟨⟨0, hn⟩⟩
    refine Finset.sum_neg (fun i _ => ?_) Finset.univ_nonempty
    have : 0 < 1 / v i := one_div_pos.2 (hv i)
    have e : t i - m i = -1 := by simp [t]
    rw [e]; nlinarith
  refine ⟨_, t, fun k => Is.fin _, ⟨_, hr, hneg⟩, fun hc => ?_⟩
  have e := hc.eq hr
  have hpd : (diagonal v).PosDef := PosDef.diagonal hv
  have := hpd.inv.posSemidef.dotProduct_mulVec_nonneg (t - m)
  simp only [star_trivial] at this
  linarith

/-- C50 (partial, diagonal covariance): the distance is 0 at the mean. Missing: everything else, which is wrong. -/
theorem C50_diag_mahalanobis_partial (h : DiagNormal.new mu S = .ok d) (hm : ∀ i, (mu i).Is (m i))
    (hS : ∀ i, (S i).Is (v i)) : (d.dMahalanobisSquared mu).Is ((m - m) ⬝ᵥ ((diagonal v)⁻¹ *ᵥ (m - m))) := by
  refine (diag_mahalanobis_is h hm hS hm).congr ?_
  simp

/-- the requested covariance is a valid one -/
theorem diag_posDef (h : DiagNormal.new mu S = .ok d) (hS : ∀ i, (S i).Is (v i)) : (diagonal v).PosDef :=
  PosDef.diagonal (diag_facts h hS).1
end

section
variable [FP] [FP.Exact] {n : ℕ} {mu : Fin n → F64} {S : F64} {m : Fin n → ℝ} {v : ℝ} {d : IsoNormal n}

theorem iso_facts (h : IsoNormal.new mu S = .ok d) (hS : S.Is v) :
    0 < v ∧ d.mu = mu ∧ d.Sigma.Is v ∧ d.lt.Is v ∧ d.det.Is (v ^ n) ∧ d.precision.Is (1 / v) := by
  obtain ⟨hp, rfl⟩ := IsoNormal.new_ok.1 h
  have hv : 0 < v := pos_of_lt hp hS
  exact ⟨hv, rfl, hS, hS, hS.powi n, Is.one.div hS hv.ne'⟩

theorem iso_mahalanobis_is (h : IsoNormal.new mu S = .ok d) (hm : ∀ i, (mu i).Is (m i)) (hS : S.Is v)
    {x : Fin n → F64} {t : Fin n → ℝ} (hx : ∀ i, (x i).Is (t i)) :
    (d.dMahalanobisSquared x).Is (∑ i, (t i - m i) * (1 / v) * (1 / v)) := by
  obtain ⟨-, hmu, -, -, -, hp⟩ := iso_facts h hS
  unfold IsoNormal.dMahalanobisSquared
  rw [hmu]
  exact sum_fin_is fun i => (((hx i).sub (hm i)).mul hp).mul hp

/-- C50 (violated, isotropic covariance): as in the diagonal case -/
theorem C50_iso_mahalanobis_violated (hn : 0 < n) (h : IsoNormal.new mu S = .ok d) (hm : ∀ i, (mu i).Is (m i))
    (hS : S.Is v) :
    ∃ (x : Fin n → F64) (t : Fin n → ℝ), (∀ i, (x i).Is (t i)) ∧
      (∃ r, (d.dMahalanobisSquared x).Is r ∧ r < 0) ∧
      ¬ (d.dMahalanobisSquared x).Is ((t - m) ⬝ᵥ ((diagonal fun _ => v)⁻¹ *ᵥ (t - m))) := by
  obtain ⟨hv, -⟩ := iso_facts h hS
  let t : Fin n → ℝ := fun k => m k - 1
  have hr := iso_mahalanobis_is h hm hS (t := t) (x := fun k => fin (t k)) fun k => Is.fin _
  have hneg : ∑ i, (t i - m i) * (1 / v) * (1 / v) < 0 := by
    have : Nonempty (Fin n) := ⟨⟨0, hn⟩⟩
    refine Finset.sum_neg (fun i _ => ?_) Finset.univ_nonempty
    have : 0 < 1 / v := one_div_pos.2 hv
    have e : t i - m i = -1 := by simp [t]
    rw [e]; nlinarith
  refine ⟨_, t, fun k => Is.fin _, ⟨_, hr, hneg⟩, fun hc => ?_⟩
  have e := hc.eq hr
  have hpd : (diagonal fun _ : Fin n => v).PosDef := PosDef.diagonal fun _ => hv
  have := hpd.inv.posSemidef.dotProduct_mulVec_nonneg (t - m)
  simp only [star_trivial] at this
  linarith

/-- C50 (partial, isotropic covariance): the distance is 0 at the mean -/
theorem C50_iso_mahalanobis_partial (h : IsoNormal.new mu S = .ok d) (hm : ∀ i, (mu i).Is (m i)) (hS : S.Is v) :
    (d.dMahalanobisSquared mu).Is ((m - m) ⬝ᵥ ((diagonal fun _ => v)⁻¹ *ᵥ (m - m))) := by
  refine (iso_mahalanobis_is h hm hS hm).congr ?_
  simp
end

/-! ### C51 -/

/-- "samples are `m + A z` with `A Aᵀ = M`" for a sampling function driven by a standard-normal generator -/
def Spec.SamplesAffine {n : ℕ} (smp : ∀ {σ : Type}, NormalRng σ → σ → (Fin n → F64) × σ) (m : Fin n → ℝ)
    (M : Matrix (Fin n) (Fin n) ℝ) : Prop :=
  ∃ A : Matrix (Fin n) (Fin n) ℝ, A * Aᵀ = M ∧ ∀ {σ : Type} (g : NormalRng σ) (s : σ) (z : Fin n → ℝ),
    (∀ i : Fin n, (g.nth s i).Is (z i)) → ∀ i, ((smp g s).1 i).Is ((m + A *ᵥ z) i)

/-- the law of `m + A z` for independent standard normal `z` is the Gaussian with mean `m` and covariance `A Aᵀ` -/
theorem affine_law {n : ℕ} (m : Fin n → ℝ) (A M : Matrix (Fin n) (Fin n) ℝ) (h : A * Aᵀ = M) :
    (Measure.pi fun _ : Fin n => gaussianReal 0 1).map (fun z => WithLp.toLp 2 (m + A *ᵥ z)) =
      multivariateGaussian (WithLp.toLp 2 m) M := by
  rw [← law_affine _ A M h, ← map_pi_eq_stdGaussian, Measure.map_map (by fun_prop) (by fun_prop)]
  congr 1

/-- a generator producing a prescribed sequence of draws -/
def scriptRng (z : ℕ → F64) : NormalRng ℕ := ⟨fun k => (z k, k + 1)⟩
theorem script_state (z : ℕ → F64) (k : ℕ) : (scriptRng z).stateAt 0 k = k := by
  induction k with
  | zero => rfl
  | succ k ih => show ((scriptRng z).draw _).2 = _; rw [ih]; rfl
theorem script_nth (z : ℕ → F64) (k : ℕ) : (scriptRng z).nth 0 k = z k := by
  show ((scriptRng z).draw _).1 = _; rw [script_state]; rfl

/-- C51 (general covariance): samples are `μ + A z` with `A Aᵀ = Σ`; they consume `n` draws, and for independent standard
normal draws their law is the Gaussian with mean `μ` and covariance `Σ`. -/
theorem C51_mv_sample [FP] [FP.Exact] [Lapack] [Lapack.Exact] {n : ℕ} {mu : Fin n → F64} {S : Fin n → Fin n → F64}
    {m : Fin n → ℝ} {M : Matrix (Fin n) (Fin n) ℝ} {d : MvNormal n} (h : MvNormal.new mu S = .ok d)
    (hm : ∀ i, (mu i).Is (m i)) (hS : ∀ i j, (S i j).Is (M i j)) (hM : M.PosDef) :
    SamplesAffine (fun g s => d.sample g s) m M ∧
    (∀ {σ : Type} (g : NormalRng σ) (s : σ), (d.sample g s).2 = g.stateAt s n) ∧
    ∀ A : Matrix (Fin n) (Fin n) ℝ, A * Aᵀ = M →
      (Measure.pi fun _ : Fin n => gaussianReal 0 1).map (fun z => WithLp.toLp 2 (m + A *ᵥ z)) =
        multivariateGaussian (WithLp.toLp 2 m) M := by
  obtain ⟨L, h0, -, h2, hlt, -, -⟩ := mv_facts h hS hM
  have hmu : d.mu = mu := by obtain ⟨-, rfl⟩ := MvNormal.new_ok.1 h; rfl
  refine ⟨⟨L, h2, ?_⟩, fun _ _ => rfl, fun A hA => affine_law m A M hA⟩
  intro σ g s z hz i
  show (mvMult d.lt (fun i => g.nth s i) i + d.mu i).Is _
  rw [hmu]
  refine ((mvMult_is hlt hz i).add (hm i)).congr ?_
  rw [Pi.add_apply, add_comm]
  congr 1
  refine Finset.sum_congr rfl fun j _ => ?_
  split_ifs with hij
  · rfl
  · show 0 = L i j * z j
    rw [h0 i j (not_le.1 hij), zero_mul]

section
variable [FP] [FP.Exact] {n : ℕ} {mu S : Fin n → F64} {m v : Fin n → ℝ} {d : DiagNormal n}

theorem diag_sample_is (h : DiagNormal.new mu S = .ok d) (hm : ∀ i, (mu i).Is (m i)) (hS : ∀ i, (S i).Is (v i))
    {σ : Type} (g : NormalRng σ) (s : σ) (z : Fin n → ℝ) (hz : ∀ i : Fin n, (g.nth s i).Is (z i)) (i : Fin n) :
    ((d.sample g s).1 i).Is (m i + v i * z i) := by
  obtain ⟨-, hmu, -, hl, -⟩ := diag_facts h hS
  show (d.mu i + d.lt i * g.nth s i).Is _
  rw [hmu]; exact (hm i).add ((hl i).mul (hz i))

/-- C51 (violated, diagonal covariance): unless every variance is 1 the samples do not have the requested covariance -/
theorem C51_diag_sample_violated (h : DiagNormal.new mu S = .ok d) (hm : ∀ i, (mu i).Is (m i)) (hS : ∀ i, (S i).Is (v i))
    {i : Fin n} (hi : v i ≠ 1) : ¬ SamplesAffine (fun g s => d.sample g s) m (diagonal v) := by
  rintro ⟨A, hA, hs⟩
  obtain ⟨hv, -⟩ := diag_facts h hS
  have key : ∀ z : Fin n → ℝ, A *ᵥ z = fun i => v i * z i := by
    intro z
    let zz : ℕ → F64 := fun k => if hk : k < n then fin (z ⟨k, hk⟩) else 0
    have hz : ∀ i : Fin n, ((scriptRng zz).nth 0 i).Is (z i) := by
      intro i; rw [script_nth]; simp only [zz, i.2, dif_pos]; exact Is.fin _
    ext i
    have := (hs (scriptRng zz) 0 z hz i).eq (diag_sample_is h hm hS (scriptRng zz) 0 z hz i)
    rw [Pi.add_apply] at this; linarith
  have hAd : A = diagonal v := by
    apply Matrix.ext_of_mulVec_single
    intro j
    rw [key]; ext i; simp [mulVec_single, diagonal_apply, Pi.single_apply]
    split_ifs with hij
    · rw [hij]
    · rfl
  rw [hAd, diagonal_transpose, diagonal_mul_diagonal] at hA
  have := congrFun (congrFun hA i) i
  simp only [diagonal_apply_eq] at this
  exact hi (mul_left_cancel₀ (hv i).ne' (by linarith))

/-- C51 (partial, diagonal covariance): right when every variance is 1. Missing: all other variances (there the samples
have covariance `diag(v²)`). -/
theorem C51_diag_sample_partial (h : DiagNormal.new mu S = .ok d) (hm : ∀ i, (mu i).Is (m i)) (hS : ∀ i, (S i).Is (v i)) :
    SamplesAffine (fun g s => d.sample g s) m (diagonal fun i => v i ^ 2) ∧
    ((∀ i, v i = 1) → SamplesAffine (fun g s => d.sample g s) m (diagonal v)) := by
  have key : SamplesAffine (fun g s => d.sample g s) m (diagonal fun i => v i ^ 2) := by
    refine ⟨diagonal v, ?_, ?_⟩
    · rw [diagonal_transpose, diagonal_mul_diagonal]; simp only [sq]
    · intro σ g s z hz i
      refine (diag_sample_is h hm hS g s z hz i).congr ?_
      rw [Pi.add_apply, mulVec_diagonal]
  refine ⟨key, fun h1 => ?_⟩
  have : (fun i => v i ^ 2) = v := by ext i; rw [h1 i]; ring
  rwa [this] at key
end

section
variable [FP] [FP.Exact] {n : ℕ} {mu : Fin n → F64} {S : F64} {m : Fin n → ℝ} {v : ℝ} {d : IsoNormal n}

theorem iso_sample_is (h : IsoNormal.new mu S = .ok d) (hm : ∀ i, (mu i).Is (m i)) (hS : S.Is v)
    {σ : Type} (g : NormalRng σ) (s : σ) (z : Fin n → ℝ) (hz : ∀ i : Fin n, (g.nth s i).Is (z i)) (i : Fin n) :
    ((d.sample g s).1 i).Is (m i + v * z i) := by
  obtain ⟨-, hmu, -, hl, -⟩ := iso_facts h hS
  show (d.mu i + d.lt * g.nth s i).Is _
  rw [hmu]; exact (hm i).add (hl.mul (hz i))

/-- C51 (violated, isotropic covariance): unless the variance is 1 (or the dimension 0) the samples do not have the
requested covariance -/
theorem C51_iso_sample_violated (hn : 0 < n) (h : IsoNormal.new mu S = .ok d) (hm : ∀ i, (mu i).Is (m i)) (hS : S.Is v)
    (hi : v ≠ 1) : ¬ SamplesAffine (fun g s => d.sample g s) m (diagonal fun _ => v) := by
  rintro ⟨A, hA, hs⟩
  obtain ⟨hv, -⟩ := iso_facts h hS
  have key : ∀ z : Fin n → ℝ, A *ᵥ z = fun i => v * z i := by
    intro z
    let zz : ℕ → F64 := fun k => if hk : k < n then fin (z ⟨k, hk⟩) else 0
    have hz : ∀ i : Fin n, ((scriptRng zz).nth 0 i).Is (z i) := by
      intro i; rw [script_nth]; simp only [zz, i.2, dif_pos]; exact Is.fin _
    ext i
    have := (hs (scriptRng zz) 0 z hz i).eq (iso_sample_is h hm hS (scriptRng zz) 0 z hz i)
    rw [Pi.add_apply] at this; linarith
  have hAd : A = diagonal fun _ => v := by
    apply Matrix.ext_of_mulVec_single
    intro j
    rw [key]; ext i; simp [mulVec_single, diagonal_apply, Pi.single_apply]
  rw [hAd, diagonal_transpose, diagonal_mul_diagonal] at hA
  have := congrFun (congrFun hA ⟨0, hn⟩) ⟨0, hn⟩
  simp only [diagonal_apply_eq] at this
  exact hi (mul_left_cancel₀ hv.ne' (by linarith))

/-- C51 (partial, isotropic covariance): right when the variance is 1 -/
theorem C51_iso_sample_partial (h : IsoNormal.new mu S = .ok d) (hm : ∀ i, (mu i).Is (m i)) (hS : S.Is v) :
    SamplesAffine (fun g s => d.sample g s) m (diagonal fun _ => v ^ 2) ∧
    (v = 1 → SamplesAffine (fun g s => d.sample g s) m (diagonal fun _ => v)) := by
  have key : SamplesAffine (fun g s => d.sample g s) m (diagonal fun _ => v ^ 2) := by
    refine ⟨diagonal fun _ => v, ?_, ?_⟩
    · rw [diagonal_transpose, diagonal_mul_diagonal]; simp only [sq]
    · intro σ g s z hz i
      refine (iso_sample_is h hm hS g s z hz i).congr ?_
      rw [Pi.add_apply, mulVec_diagonal]
  refine ⟨key, ?_⟩
  rintro rfl; simpa using key
end

/-! ### C52 -/
section
variable [FP] [FP.Exact] {n : ℕ}

theorem mvEntropy_is {det : F64} {D : ℝ} (h : det.Is D) (hD : 0 < D) :
    (mvEntropy n det).Is ((n * (1 + Real.log (2 * π)) + Real.log D) / 2) := by
  unfold mvEntropy
  refine Is.congr (r := (0.5 : ℝ) * ((n : ℝ) * (1 + Real.log (π * 2)) + Real.log D)) (by fev) ?_
  rw [mul_comm π 2]; ring

/-- C52 (general covariance): the entropy returned is the differential entropy of the Gaussian density with mean `μ` and
covariance `Σ`; mean, covariance, variance and mode are those of the parameters. -/
theorem C52_mv_entropy_moments [Lapack] [Lapack.Exact] {mu : Fin n → F64} {S : Fin n → Fin n → F64} {m : Fin n → ℝ}
    {M : Matrix (Fin n) (Fin n) ℝ} {d : MvNormal n} (h : MvNormal.new mu S = .ok d) (hm : ∀ i, (mu i).Is (m i))
    (hS : ∀ i j, (S i j).Is (M i j)) (hM : M.PosDef) :
    (∃ e, d.shannonEntropy.Is e ∧ e = (n * (1 + Real.log (2 * π)) + Real.log M.det) / 2 ∧
      HasEntropyN (mvGaussianPDF m M) e) ∧
    (∀ i, (d.mean i).Is (m i)) ∧ (∀ i j, (d.covariance i j).Is (M i j)) ∧ (∀ i, (d.variance i).Is (M i i)) ∧
    d.modes = [mu] ∧ (∀ x, mvGaussianPDF m M x ≤ mvGaussianPDF m M m) := by
  obtain ⟨L, -, -, -, -, hdet, -⟩ := mv_facts h hS hM
  refine ⟨⟨_, mvEntropy_is hdet hM.det_pos, rfl, mvGaussian_entropy m hM⟩, ?_⟩
  obtain ⟨-, rfl⟩ := MvNormal.new_ok.1 h
  refine ⟨hm, hS, fun i => hS i i, rfl, fun x => ?_⟩
  unfold mvGaussianPDF
  refine div_le_div_of_nonneg_right (Real.exp_le_exp.2 ?_) (Real.sqrt_nonneg _)
  have := hM.inv.posSemidef.dotProduct_mulVec_nonneg (x - m)
  simp only [star_trivial] at this
  rw [sub_self m, zero_dotProduct]; linarith

/-- C52 (diagonal covariance) -/
theorem C52_diag_entropy_moments {mu S : Fin n → F64} {m v : Fin n → ℝ} {d : DiagNormal n}
    (h : DiagNormal.new mu S = .ok d) (hm : ∀ i, (mu i).Is (m i)) (hS : ∀ i, (S i).Is (v i)) :
    (∃ e, d.shannonEntropy.Is e ∧ HasEntropyN (mvGaussianPDF m (diagonal v)) e) ∧
    (∀ i, (d.mean i).Is (m i)) ∧ (∀ i j, (d.covariance i j).Is (diagonal v i j)) ∧ (∀ i, (d.variance i).Is (v i)) ∧
    d.modes = [mu] := by
  obtain ⟨hv, hmu, hs, -, hdet, -⟩ := diag_facts h hS
  have hd : (diagonal v).det = ∏ i, v i := det_diagonal
  refine ⟨⟨_, mvEntropy_is hdet (Finset.prod_pos fun i _ => hv i), ?_⟩, ?_, ?_, hs, ?_⟩
  · have := mvGaussian_entropy m (diag_posDef h hS)
    rwa [hd] at this
  · unfold DiagNormal.mean; rwa [hmu]
  · intro i j
    unfold DiagNormal.covariance
    rw [diagonal_apply]
    split_ifs with hij
    · exact hs i
    · exact Is.zero
  · unfold DiagNormal.modes; rw [hmu]

/-- C52 (isotropic covariance) -/
theorem C52_iso_entropy_moments {mu : Fin n → F64} {S : F64} {m : Fin n → ℝ} {v : ℝ} {d : IsoNormal n}
    (h : IsoNormal.new mu S = .ok d) (hm : ∀ i, (mu i).Is (m i)) (hS : S.Is v) :
    (∃ e, d.shannonEntropy.Is e ∧ HasEntropyN (mvGaussianPDF m (diagonal fun _ => v)) e) ∧
    (∀ i, (d.mean i).Is (m i)) ∧ (∀ i j, (d.covariance i j).Is (diagonal (fun _ => v) i j)) ∧
    (∀ i, (d.variance i).Is v) ∧ d.modes = [mu] := by
  obtain ⟨hv, hmu, hs, -, hdet, -⟩ := iso_facts h hS
  have hd : (diagonal fun _ : Fin n => v).det = v ^ n := by rw [det_diagonal]; simp
  have hpd : (diagonal fun _ : Fin n => v).PosDef := PosDef.diagonal fun _ => hv
  refine ⟨⟨_, mvEntropy_is hdet (by positivity), ?_⟩, ?_, ?_, fun _ => hs, ?_⟩
  · have := mvGaussian_entropy m hpd
    rwa [hd] at this
  · unfold IsoNormal.mean; rwa [hmu]
  · intro i j
    unfold IsoNormal.covariance
    rw [diagonal_apply]
    split_ifs with hij
    · exact hs
    · exact Is.zero
  · unfold IsoNormal.modes; rw [hmu]

/-- C52: `homogeneous(μ, σ²)` is the isotropic normal with all means `μ`, refused in dimension 0; `standard` is its case
(0, 1) -/
theorem C52_homogeneous {mu S : F64} {d : IsoNormal n} :
    (IsoNormal.homogeneous n mu S = .ok d ↔ 0 < n ∧ IsoNormal.new (fun _ => mu) S = .ok d) ∧
    (IsoNormal.standard n = .ok d ↔ 0 < n ∧ IsoNormal.new (fun _ => (0 : F64)) 1 = .ok d) ∧
    (0 < n → IsoNormal.standard n = .ok (IsoNormal.standardUnchecked n)) := by
  refine ⟨?_, ?_, fun hn => ?_⟩
  · rw [IsoNormal.homogeneous_ok, IsoNormal.new_ok]
  · unfold IsoNormal.standard; rw [IsoNormal.homogeneous_ok, IsoNormal.new_ok]
  · unfold IsoNormal.standard; exact IsoNormal.homogeneous_ok.2 ⟨hn, lt_of_pos one_pos Is.one, rfl⟩
end

/-! ### C105: densities -/
section
variable [FP] [FP.Exact] {n : ℕ}

theorem mvPdf_is {z det : F64} {r D : ℝ} (hz : z.Is r) (h : det.Is D) (hD : 0 < D) :
    (mvPdf n z det).Is (Real.exp (-r / 2) / √((2 * π) ^ n * D)) := by
  unfold mvPdf
  dsimp only
  have hp := PI_2_is.powi n
  have := (hp.mul h).sqrt (by positivity)
  refine Is.congr ((hz.neg.div (Is.num 2) (by norm_num)).exp.div this ?_) ?_
  · exact (Real.sqrt_pos.2 (mul_pos (by positivity) hD)).ne'
  · rw [mul_comm π 2]

/-- C105 (partial, general covariance): `pdf` is the Gaussian density when the coordinates are uncorrelated. Missing: the
correlated case, where it is not (`C105_mv_pdf_violated`). -/
theorem C105_mv_pdf_partial [Lapack] [Lapack.Exact] {mu : Fin n → F64} {S : Fin n → Fin n → F64} {m : Fin n → ℝ}
    {M : Matrix (Fin n) (Fin n) ℝ} {d : MvNormal n} (h : MvNormal.new mu S = .ok d) (hm : ∀ i, (mu i).Is (m i))
    (hS : ∀ i j, (S i j).Is (M i j)) (hM : M.PosDef) (hdiag : ∀ i j, i ≠ j → M⁻¹ i j = 0) :
    (∀ (x : Fin n → F64) (t : Fin n → ℝ), (∀ i, (x i).Is (t i)) → (d.pdf x).Is (mvGaussianPDF m M t)) ∧
    ∫ t, mvGaussianPDF m M t = 1 := by
  obtain ⟨L, -, -, -, -, hdet, -⟩ := mv_facts h hS hM
  exact ⟨fun x t hx => mvPdf_is (C50_mv_mahalanobis_partial h hm hS hM hdiag hx) hdet hM.det_pos,
    (mvGaussian_total m hM).2.2⟩

/-- C105 (violated, general covariance): with correlated coordinates `pdf` is not the Gaussian density -/
theorem C105_mv_pdf_violated [Lapack] [Lapack.Exact] {mu : Fin n → F64} {S : Fin n → Fin n → F64} {m : Fin n → ℝ}
    {M : Matrix (Fin n) (Fin n) ℝ} {d : MvNormal n} (h : MvNormal.new mu S = .ok d) (hm : ∀ i, (mu i).Is (m i))
    (hS : ∀ i j, (S i j).Is (M i j)) (hM : M.PosDef) {i j : Fin n} (hij : i ≠ j) (hne : M⁻¹ i j ≠ 0) :
    ∃ (x : Fin n → F64) (t : Fin n → ℝ), (∀ i, (x i).Is (t i)) ∧ ¬ (d.pdf x).Is (mvGaussianPDF m M t) := by
  obtain ⟨x, t, hx, hn⟩ := C50_mv_mahalanobis_violated h hm hS hM hij hne
  obtain ⟨L, -, -, -, -, hdet, -⟩ := mv_facts h hS hM
  refine ⟨x, t, hx, fun hc => hn ?_⟩
  have hr := mv_mahalanobis_is h hm hS hM hx
  have e := hc.eq (mvPdf_is hr hdet hM.det_pos)
  unfold mvGaussianPDF at e
  have hpos : 0 < √((2 * π) ^ n * M.det) := Real.sqrt_pos.2 (mul_pos (by positivity) hM.det_pos)
  rw [div_left_inj' hpos.ne', Real.exp_eq_exp] at e
  exact hr.congr (by linarith)

/-- C105 (violated, diagonal covariance): in every positive dimension there is a point where `pdf` exceeds its value at
the mode, so it is not the Gaussian density -/
theorem C105_diag_pdf_violated (hn : 0 < n) {mu S : Fin n → F64} {m v : Fin n → ℝ} {d : DiagNormal n}
    (h : DiagNormal.new mu S = .ok d) (hm : ∀ i, (mu i).Is (m i)) (hS : ∀ i, (S i).Is (v i)) :
    ∃ (x : Fin n → F64) (t : Fin n → ℝ) (p q : ℝ), (∀ i, (x i).Is (t i)) ∧ (d.pdf x).Is p ∧ (d.pdf mu).Is q ∧ q < p ∧
      q = mvGaussianPDF m (diagonal v) m ∧ p ≠ mvGaussianPDF m (diagonal v) t := by
  obtain ⟨hv, hmu, hs, -, hdet, -⟩ := diag_facts h hS
  have hD : 0 < ∏ i, v i := Finset.prod_pos fun i _ => hv i
  obtain ⟨x, t, hx, ⟨r, hr, hneg⟩, -⟩ := C50_diag_mahalanobis_violated hn h hm hS
  have h0 := C50_diag_mahalanobis_partial h hm hS
  have hpos : 0 < √((2 * π) ^ n * ∏ i, v i) := Real.sqrt_pos.2 (mul_pos (by positivity) hD)
  have hlt : Real.exp (-((m - m) ⬝ᵥ ((diagonal v)⁻¹ *ᵥ (m - m))) / 2) / √((2 * π) ^ n * ∏ i, v i) <
      Real.exp (-r / 2) / √((2 * π) ^ n * ∏ i, v i) := by
    refine div_lt_div_of_pos_right (Real.exp_lt_exp.2 ?_) hpos
    simp; linarith
  refine ⟨x, t, _, _, hx, mvPdf_is hr hdet hD, mvPdf_is h0 hdet hD, hlt, ?_, fun he => ?_⟩
  · unfold mvGaussianPDF; rw [det_diagonal]
  · rw [he] at hlt
    unfold mvGaussianPDF at hlt
    rw [det_diagonal] at hlt
    have := (div_lt_div_iff_of_pos_right hpos).1 hlt
    rw [Real.exp_lt_exp] at this
    have h2 := (diag_posDef h hS).inv.posSemidef.dotProduct_mulVec_nonneg (t - m)
    simp only [star_trivial] at h2
    rw [sub_self m, zero_dotProduct] at this; linarith

/-- C105 (violated, isotropic covariance) -/
theorem C105_iso_pdf_violated (hn : 0 < n) {mu : Fin n → F64} {S : F64} {m : Fin n → ℝ} {v : ℝ} {d : IsoNormal n}
    (h : IsoNormal.new mu S = .ok d) (hm : ∀ i, (mu i).Is (m i)) (hS : S.Is v) :
    ∃ (x : Fin n → F64) (t : Fin n → ℝ) (p q : ℝ), (∀ i, (x i).Is (t i)) ∧ (d.pdf x).Is p ∧ (d.pdf mu).Is q ∧ q < p ∧
      q = mvGaussianPDF m (diagonal fun _ => v) m ∧ p ≠ mvGaussianPDF m (diagonal fun _ => v) t := by
  obtain ⟨hv, hmu, hs, -, hdet, -⟩ := iso_facts h hS
  have hD : 0 < v ^ n := by positivity
  have hdd : (diagonal fun _ : Fin n => v).det = v ^ n := by rw [det_diagonal]; simp
  have hpd : (diagonal fun _ : Fin n => v).PosDef := PosDef.diagonal fun _ => hv
  obtain ⟨x, t, hx, ⟨r, hr, hneg⟩, -⟩ := C50_iso_mahalanobis_violated hn h hm hS
  have h0 := C50_iso_mahalanobis_partial h hm hS
  have hpos : 0 < √((2 * π) ^ n * v ^ n) := Real.sqrt_pos.2 (mul_pos (by positivity) hD)
  have hlt : Real.exp (-((m - m) ⬝ᵥ ((diagonal fun _ => v)⁻¹ *ᵥ (m - m))) / 2) / √((2 * π) ^ n * v ^ n) <
      Real.exp (-r / 2) / √((2 * π) ^ n * v ^ n) := by
    refine div_lt_div_of_pos_right (Real.exp_lt_exp.2 ?_) hpos
    simp; linarith
  refine ⟨x, t, _, _, hx, mvPdf_is hr hdet hD, mvPdf_is h0 hdet hD, hlt, ?_, fun he => ?_⟩
  · unfold mvGaussianPDF; rw [hdd]
  · rw [he] at hlt
    unfold mvGaussianPDF at hlt
    rw [hdd] at hlt
    have := (div_lt_div_iff_of_pos_right hpos).1 hlt
    rw [Real.exp_lt_exp] at this
    have h2 := hpd.inv.posSemidef.dotProduct_mulVec_nonneg (t - m)
    simp only [star_trivial] at h2
    rw [sub_self m, zero_dotProduct] at this; linarith
end

/-! ### non-vacuity -/
section
attribute [local instance] exactFP exactFP_exact exactLapack exactLapack_exact

/-- a correlated positive definite covariance in the model -/
theorem ex_posDef : (!![2, 1; 1, 2] : Matrix (Fin 2) (Fin 2) ℝ).PosDef := by
  refine PosDef.of_dotProduct_mulVec_pos (by ext i j; fin_cases i <;> fin_cases j <;> simp) fun x hx => ?_
  simp [mulVec, dotProduct, Fin.sum_univ_two]
  have : x 0 ≠ 0 ∨ x 1 ≠ 0 := by
    by_contra hc; push Not at hc
    exact hx (by ext i; fin_cases i <;> simp [hc])
  rcases this with h | h
  · have : 0 < x 0 ^ 2 := by positivity
    nlinarith [sq_nonneg (x 0 + x 1), sq_nonneg (x 1)]
  · have : 0 < x 1 ^ 2 := by positivity
    nlinarith [sq_nonneg (x 0 + x 1), sq_nonneg (x 0)]

example : ∃ (d : MvNormal 2) (M : Matrix (Fin 2) (Fin 2) ℝ),
    MvNormal.new (fun _ => fin 0) (fun i j => fin (M i j)) = .ok d ∧ M.PosDef ∧ M⁻¹ 0 1 ≠ 0 := by
  refine ⟨_, !![2, 1; 1, 2], MvNormal.new_ok.2 ⟨fun i j => ?_, rfl⟩, ex_posDef, ?_⟩
  · refine fin_le_fin.2 ?_
    fin_cases i <;> fin_cases j <;> simp
  · rw [Matrix.inv_def, adjugate_fin_two_of, det_fin_two_of]; norm_num

example : ∃ d, DiagNormal.new (n := 3) (fun _ => fin 0) (fun _ => fin 2) = .ok d :=
  ⟨_, DiagNormal.new_ok.2 ⟨fun _ => fin_lt_fin.2 (by norm_num), rfl⟩⟩
example : ∃ d, IsoNormal.new (n := 3) (fun _ => fin 0) (fin 2) = .ok d :=
  ⟨_, IsoNormal.new_ok.2 ⟨fin_lt_fin.2 (by norm_num), rfl⟩⟩
end

end Rstat
