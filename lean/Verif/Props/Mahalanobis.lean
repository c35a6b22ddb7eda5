import Verif.Props.MvNormal

/-! C50 / C105 continued: exactly at which points the squared distance and the density of the diagonal and isotropic normal
laws are right. -/
namespace Rstat
open F64 Spec Matrix Real

section
variable [FP] [FP.Exact] {n : ℕ} {mu S : Fin n → F64} {m v : Fin n → ℝ} {d : DiagNormal n}

theorem maha_diag_quad {v : Fin n → ℝ} (hv : ∀ i, 0 < v i) (u : Fin n → ℝ) : u ⬝ᵥ ((diagonal v)⁻¹ *ᵥ u) = ∑ i, u i ^ 2 / v i := by
  have hi : (diagonal v)⁻¹ = diagonal fun i => (v i)⁻¹ := by
    refine inv_eq_right_inv ?_
    rw [diagonal_mul_diagonal, ← diagonal_one]
    congr 1; funext i; exact mul_inv_cancel₀ (hv i).ne'
  rw [hi]
  simp only [dotProduct, mulVec_diagonal]
  refine Finset.sum_congr rfl fun i _ => ?_
  rw [sq]; field_simp

/-- C50 (partial, diagonal covariance): at every point the value returned is `Σ (x_i-μ_i)/v_i²`; it is the squared
Mahalanobis distance exactly where `Σ ((x_i-μ_i)² v_i - (x_i-μ_i))/v_i² = 0`, in particular where every coordinate is `μ_i` or
`μ_i + 1/v_i`. Missing: every other point, where it is wrong. -/
theorem C50_diag_mahalanobis_points_partial (h : DiagNormal.new mu S = .ok d) (hm : ∀ i, (mu i).Is (m i))
    (hS : ∀ i, (S i).Is (v i)) {x : Fin n → F64} {t : Fin n → ℝ} (hx : ∀ i, (x i).Is (t i)) :
    (d.dMahalanobisSquared x).Is (∑ i, (t i - m i) / v i ^ 2) ∧
    ((d.dMahalanobisSquared x).Is ((t - m) ⬝ᵥ ((diagonal v)⁻¹ *ᵥ (t - m))) ↔ ∑ i, ((t i - m i) ^ 2 * v i - (t i - m i)) / v i ^ 2 = 0) ∧
    ((∀ i, t i = m i ∨ t i = m i + 1 / v i) → (d.dMahalanobisSquared x).Is ((t - m) ⬝ᵥ ((diagonal v)⁻¹ *ᵥ (t - m)))) := by
  have hv := (diag_facts h hS).1
  have e : ∑ i, (t i - m i) * (1 / v i) * (1 / v i) = ∑ i, (t i - m i) / v i ^ 2 :=
    Finset.sum_congr rfl fun i _ => by have := (hv i).ne'; field_simp
  have hr := (diag_mahalanobis_is h hm hS hx).congr e
  have key : (d.dMahalanobisSquared x).Is ((t - m) ⬝ᵥ ((diagonal v)⁻¹ *ᵥ (t - m))) ↔
      ∑ i, ((t i - m i) ^ 2 * v i - (t i - m i)) / v i ^ 2 = 0 := by
    have s : ∑ i, ((t i - m i) ^ 2 * v i - (t i - m i)) / v i ^ 2 = (t - m) ⬝ᵥ ((diagonal v)⁻¹ *ᵥ (t - m)) - ∑ i, (t i - m i) / v i ^ 2 := by
      rw [maha_diag_quad hv, ← Finset.sum_sub_distrib]
      refine Finset.sum_congr rfl fun i _ => ?_
      have := (hv i).ne'
      rw [Pi.sub_apply]; field_simp
    rw [s, sub_eq_zero]
    exact ⟨fun hc => hc.eq hr, fun hc => by rw [hc]; exact hr⟩
  refine ⟨hr, key, fun hp => key.2 (Finset.sum_eq_zero fun i _ => ?_)⟩
  have := (hv i).ne'
  rcases hp i with e | e <;> rw [e]
  · simp
  · field_simp; ring

/-- C105 (partial, diagonal covariance): the density is right exactly where the distance is, in particular at the mean. -/
theorem C105_diag_pdf_partial (h : DiagNormal.new mu S = .ok d) (hm : ∀ i, (mu i).Is (m i)) (hS : ∀ i, (S i).Is (v i))
    {x : Fin n → F64} {t : Fin n → ℝ} (hx : ∀ i, (x i).Is (t i)) :
    (d.pdf x).Is (mvGaussianPDF m (diagonal v) t) ↔ ∑ i, ((t i - m i) ^ 2 * v i - (t i - m i)) / v i ^ 2 = 0 := by
  obtain ⟨hr, hk, -⟩ := C50_diag_mahalanobis_points_partial h hm hS hx
  rw [← hk]
  obtain ⟨hv, hmu, hs, -, hdet, -⟩ := diag_facts h hS
  have hD : 0 < ∏ i, v i := Finset.prod_pos fun i _ => hv i
  have hpos : 0 < √((2 * π) ^ n * ∏ i, v i) := Real.sqrt_pos.2 (mul_pos (by positivity) hD)
  have hp : (d.pdf x).Is (Real.exp (-(∑ i, (t i - m i) / v i ^ 2) / 2) / √((2 * π) ^ n * ∏ i, v i)) := mvPdf_is hr hdet hD
  have eq : mvGaussianPDF m (diagonal v) t = Real.exp (-((t - m) ⬝ᵥ ((diagonal v)⁻¹ *ᵥ (t - m))) / 2) / √((2 * π) ^ n * ∏ i, v i) := by
    unfold mvGaussianPDF; rw [det_diagonal]
  rw [eq]
  constructor
  · intro hc
    have e := hc.eq hp
    rw [div_left_inj' hpos.ne', Real.exp_eq_exp] at e
    exact hr.congr (by linarith)
  · intro hc
    rw [hc.eq hr]; exact hp
end

section
variable [FP] [FP.Exact] {n : ℕ} {mu : Fin n → F64} {S : F64} {m : Fin n → ℝ} {v : ℝ} {d : IsoNormal n}

/-- C50 (partial, isotropic covariance): as in the diagonal case. -/
theorem C50_iso_mahalanobis_points_partial (h : IsoNormal.new mu S = .ok d) (hm : ∀ i, (mu i).Is (m i)) (hS : S.Is v)
    {x : Fin n → F64} {t : Fin n → ℝ} (hx : ∀ i, (x i).Is (t i)) :
    (d.dMahalanobisSquared x).Is (∑ i, (t i - m i) / v ^ 2) ∧
    ((d.dMahalanobisSquared x).Is ((t - m) ⬝ᵥ ((diagonal fun _ => v)⁻¹ *ᵥ (t - m))) ↔ ∑ i, ((t i - m i) ^ 2 * v - (t i - m i)) = 0) ∧
    ((∀ i, t i = m i ∨ t i = m i + 1 / v) → (d.dMahalanobisSquared x).Is ((t - m) ⬝ᵥ ((diagonal fun _ => v)⁻¹ *ᵥ (t - m)))) := by
  have hv := (iso_facts h hS).1
  have e : ∑ i, (t i - m i) * (1 / v) * (1 / v) = ∑ i, (t i - m i) / v ^ 2 :=
    Finset.sum_congr rfl fun i _ => by have := hv.ne'; field_simp
  have hr := (iso_mahalanobis_is h hm hS hx).congr e
  have key : (d.dMahalanobisSquared x).Is ((t - m) ⬝ᵥ ((diagonal fun _ => v)⁻¹ *ᵥ (t - m))) ↔
      ∑ i, ((t i - m i) ^ 2 * v - (t i - m i)) = 0 := by
    have s : (∑ i, ((t i - m i) ^ 2 * v - (t i - m i))) / v ^ 2 = (t - m) ⬝ᵥ ((diagonal fun _ => v)⁻¹ *ᵥ (t - m)) - ∑ i, (t i - m i) / v ^ 2 := by
      rw [maha_diag_quad (fun _ => hv), ← Finset.sum_sub_distrib, Finset.sum_div]
      refine Finset.sum_congr rfl fun i _ => ?_
      have := hv.ne'
      rw [Pi.sub_apply]; field_simp
    rw [← div_left_inj' (pow_pos hv 2).ne', s, zero_div, sub_eq_zero]
    exact ⟨fun hc => hc.eq hr, fun hc => by rw [hc]; exact hr⟩
  refine ⟨hr, key, fun hp => key.2 (Finset.sum_eq_zero fun i _ => ?_)⟩
  have := hv.ne'
  rcases hp i with e | e <;> rw [e]
  · simp
  · field_simp; ring

/-- C105 (partial, isotropic covariance): the density is right exactly where the distance is, in particular at the mean. -/
theorem C105_iso_pdf_partial (h : IsoNormal.new mu S = .ok d) (hm : ∀ i, (mu i).Is (m i)) (hS : S.Is v)
    {x : Fin n → F64} {t : Fin n → ℝ} (hx : ∀ i, (x i).Is (t i)) :
    (d.pdf x).Is (mvGaussianPDF m (diagonal fun _ => v) t) ↔ ∑ i, ((t i - m i) ^ 2 * v - (t i - m i)) = 0 := by
  obtain ⟨hr, hk, -⟩ := C50_iso_mahalanobis_points_partial h hm hS hx
  rw [← hk]
  obtain ⟨hv, hmu, hs, -, hdet, -⟩ := iso_facts h hS
  have hD : 0 < v ^ n := by positivity
  have hpos : 0 < √((2 * π) ^ n * v ^ n) := Real.sqrt_pos.2 (mul_pos (by positivity) hD)
  have hp : (d.pdf x).Is (Real.exp (-(∑ i, (t i - m i) / v ^ 2) / 2) / √((2 * π) ^ n * v ^ n)) := mvPdf_is hr hdet hD
  have hdd : (diagonal fun _ : Fin n => v).det = v ^ n := by rw [det_diagonal]; simp
  have eq : mvGaussianPDF m (diagonal fun _ => v) t = Real.exp (-((t - m) ⬝ᵥ ((diagonal fun _ => v)⁻¹ *ᵥ (t - m))) / 2) / √((2 * π) ^ n * v ^ n) := by
    unfold mvGaussianPDF; rw [hdd]
  rw [eq]
  constructor
  · intro hc
    have e := hc.eq hp
    rw [div_left_inj' hpos.ne', Real.exp_eq_exp] at e
    exact hr.congr (by linarith)
  · intro hc
    rw [hc.eq hr]; exact hp
end

section
attribute [local instance] exactFP exactFP_exact
/-- non-vacuity: in three dimensions with variance 2 the distance is right at `(0, 1/2, 0)` -/
example : ∃ d, IsoNormal.new (n := 3) (fun _ => fin 0) (fin 2) = .ok d ∧
    (d.dMahalanobisSquared ![fin 0, fin (1 / 2), fin 0]).Is ((![0, 1 / 2, 0] - fun _ => 0) ⬝ᵥ ((diagonal fun _ => (2:ℝ))⁻¹ *ᵥ (![0, 1 / 2, 0] - fun _ => 0))) := by
  have h : IsoNormal.new (n := 3) (fun _ => fin 0) (fin 2) = .ok _ := IsoNormal.new_ok.2 ⟨fin_lt_fin.2 (by norm_num), rfl⟩
  refine ⟨_, h, (C50_iso_mahalanobis_points_partial h (fun _ => Is.fin _) (Is.fin _) ?_).2.2 ?_⟩
  · intro i; fin_cases i <;> exact Is.fin _
  · intro i; fin_cases i <;> simp
/-- non-vacuity: a diagonal covariance `(1, 2, 3)` -/
example : ∃ d, DiagNormal.new (n := 3) (fun _ => fin 0) (fun i => fin (i.1 + 1)) = .ok d ∧ (d.pdf fun _ => fin 0).Is (mvGaussianPDF (fun _ => 0) (diagonal fun i : Fin 3 => (i.1 : ℝ) + 1) fun _ => 0) := by
  have h : DiagNormal.new (n := 3) (fun _ => fin 0) (fun i => fin (i.1 + 1)) = .ok _ := DiagNormal.new_ok.2 ⟨fun i => fin_lt_fin.2 (by positivity), rfl⟩
  exact ⟨_, h, (C105_diag_pdf_partial h (fun _ => Is.fin _) (fun _ => Is.fin _) (fun _ => Is.fin _)).2 (by simp)⟩
end
end Rstat
