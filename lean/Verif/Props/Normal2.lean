import Verif.Props.Normal
import Mathlib.LinearAlgebra.Matrix.NonsingularInverse
import Mathlib.LinearAlgebra.Matrix.Notation

/-! Properties C45 (univariate, bivariate), C46–C49: bivariate and paired normals. -/
set_option linter.unusedSectionVars false
namespace Rstat
open F64 Consts Spec MeasureTheory ProbabilityTheory Real Set Matrix

/-! ### constructors -/
theorem BvNormal.new_ok {mu S : Fin 2 → F64} {rho : F64} {d : BvNormal} :
    BvNormal.new mu S rho = .ok d ↔ (∀ i, 0 < S i) ∧ F64.fin (-1) ≤ rho ∧ rho ≤ F64.fin 1 ∧ d = ⟨mu, S, rho⟩ := by
  unfold BvNormal.new Covariance.bivariate
  have h1 : ∀ w, (Cst.allArr (t := Ty.f64) (n := 2) .positive).check S = .ok w ↔ (∀ i, 0 < S i) ∧ w = S := fun w =>
    (Cst.check_ok_iff _ _ _).trans (and_congr_left' (by
      simp only [Cst.sat]; rw [List.all_eq_true]; simp; rfl))
  have h2 : ∀ r, (Cst.interval (s := .f64) (F64.fin (-1)) (F64.fin 1)).check rho = .ok r ↔
      (F64.fin (-1) ≤ rho ∧ rho ≤ F64.fin 1) ∧ r = rho := fun r =>
    (Cst.check_ok_iff _ _ _).trans (and_congr_left' (by simp [Cst.sat]; exact Iff.rfl))
  cases e1 : (Cst.allArr (t := Ty.f64) (n := 2) .positive).check S with
  | error e =>
    simp only [reduceCtorEq, false_iff]; rintro ⟨h, -⟩
    rw [(h1 S).2 ⟨h, rfl⟩] at e1; cases e1
  | ok w =>
    obtain ⟨hS, rfl⟩ := (h1 w).1 e1
    cases e2 : (Cst.interval (s := .f64) (F64.fin (-1)) (F64.fin 1)).check rho with
    | error e =>
      simp only [reduceCtorEq, false_iff]; rintro ⟨-, ha, hb, -⟩
      rw [(h2 rho).2 ⟨⟨ha, hb⟩, rfl⟩] at e2; cases e2
    | ok r =>
      obtain ⟨hr, rfl⟩ := (h2 r).1 e2
      constructor
      · intro h; cases h; exact ⟨hS, hr.1, hr.2, rfl⟩
      · rintro ⟨-, -, -, rfl⟩; rfl

theorem PairedNormal.new_ok {mu S : Fin 2 → F64} {d : PairedNormal} :
    PairedNormal.new mu S = .ok d ↔ (∀ i, 0 < S i) ∧ d = ⟨mu, S⟩ := by
  unfold PairedNormal.new Covariance.diagonal
  have h1 : ∀ w, (Cst.allArr (t := Ty.f64) (n := 2) .positive).check S = .ok w ↔ (∀ i, 0 < S i) ∧ w = S := fun w =>
    (Cst.check_ok_iff _ _ _).trans (and_congr_left' (by
      simp only [Cst.sat]; rw [List.all_eq_true]; simp; rfl))
  cases e1 : (Cst.allArr (t := Ty.f64) (n := 2) .positive).check S with
  | error e =>
    simp only [Except.mapError, reduceCtorEq, false_iff]; rintro ⟨h, -⟩
    rw [(h1 S).2 ⟨h, rfl⟩] at e1; cases e1
  | ok w =>
    obtain ⟨hS, rfl⟩ := (h1 w).1 e1
    constructor
    · intro h; cases h; exact ⟨hS, rfl⟩
    · rintro ⟨-, rfl⟩; rfl

/-! ### C45 -/

/-- C45: univariate gradients scale componentwise (in every arithmetic) -/
theorem C45_uv_grad_mul [FP] (g : NGrad F64 F64) (s : F64) :
    (UvNormal.gradMul g s).mu = g.mu * s ∧ (UvNormal.gradMul g s).Sigma = g.Sigma * s := ⟨rfl, rfl⟩

/-- C45 (violated): scaling a bivariate gradient leaves the second variance component unscaled; whenever that component
is a nonzero finite number and the factor is finite and not 1, the result is wrong. -/
theorem C45_bv_grad_mul_violated [FP] [FP.Exact] (g : NGrad (Fin 2 → F64) ((Fin 2 → F64) × F64)) (s : F64) {r t : ℝ}
    (hg : (g.Sigma.1 1).Is r) (hs : s.Is t) (hr : r ≠ 0) (ht : t ≠ 1) :
    (BvNormal.gradMul g s).Sigma.1 1 ≠ g.Sigma.1 1 * s := by
  intro h
  have h1 : ((BvNormal.gradMul g s).Sigma.1 1).Is r := hg
  rw [h] at h1
  have := h1.eq (hg.mul hs)
  have : r * (t - 1) = 0 := by linarith
  rcases mul_eq_zero.1 this with h | h
  · exact hr h
  · exact ht (by linarith)

/-- C45 (partial): all the other components of a bivariate gradient are scaled. Missing: the second variance component. -/
theorem C45_bv_grad_mul_partial [FP] (g : NGrad (Fin 2 → F64) ((Fin 2 → F64) × F64)) (s : F64) :
    (∀ i, (BvNormal.gradMul g s).mu i = g.mu i * s) ∧ (BvNormal.gradMul g s).Sigma.1 0 = g.Sigma.1 0 * s ∧
    (BvNormal.gradMul g s).Sigma.2 = g.Sigma.2 * s := by
  refine ⟨fun i => ?_, rfl, rfl⟩
  fin_cases i <;> rfl

section
attribute [local instance] exactFP exactFP_exact
example : (BvNormal.gradMul ⟨![fin 1, fin 1], (![fin 1, fin 2], fin 1)⟩ (fin 3)).Sigma.1 1 ≠ fin 2 * fin 3 :=
  C45_bv_grad_mul_violated ⟨![fin 1, fin 1], (![fin 1, fin 2], fin 1)⟩ (fin 3) (Is.fin 2) (Is.fin 3) (by norm_num) (by norm_num)
end

/-! ### C46 -/
section
variable [FP] [FP.Exact] {mu S : Fin 2 → F64} {rho : F64} {m s : Fin 2 → ℝ} {r : ℝ} {d : BvNormal}

/-- the covariance matrix of the bivariate law with variances `s` and correlation `r` -/
noncomputable def Spec.bvCov (s : Fin 2 → ℝ) (r : ℝ) : Matrix (Fin 2) (Fin 2) ℝ :=
  !![s 0, r * (√(s 0) * √(s 1)); r * (√(s 0) * √(s 1)), s 1]

theorem bvCov_det {s : Fin 2 → ℝ} (hs : ∀ i, 0 < s i) (r : ℝ) : (bvCov s r).det = s 0 * s 1 * (1 - r ^ 2) := by
  rw [bvCov, det_fin_two_of]
  have h0 := Real.sq_sqrt (hs 0).le
  have h1 := Real.sq_sqrt (hs 1).le
  linear_combination (-(r ^ 2 * √(s 1) ^ 2)) * h0 - r ^ 2 * s 0 * h1

theorem bv_cov_is (hS : ∀ i, (S i).Is (s i)) (hr : rho.Is r) (hs : ∀ i, 0 < s i) (i j : Fin 2) :
    ((BvNormal.covariance ⟨mu, S, rho⟩) i j).Is (bvCov s r i j) := by
  have h0 := hS 0
  have h1 := hS 1
  have p0 := (hs 0).le
  have p1 := (hs 1).le
  have hc : (rho * ((S 0).sqrt * (S 1).sqrt)).Is (r * (√(s 0) * √(s 1))) := by fev
  fin_cases i <;> fin_cases j
  · exact h0
  · exact hc
  · exact hc
  · exact h1

/-- C46: with positive variances and |ρ| < 1, `covariance()` is a matrix Σ with `det Σ > 0`, `z(x)` is the Mahalanobis form
`(x-μ)ᵀ Σ⁻¹ (x-μ)`, `pdf` is the bivariate Gaussian density `exp(-½ (x-μ)ᵀΣ⁻¹(x-μ)) / (2π √det Σ)`, `variance()` the
diagonal of Σ, and `correlation()` is `Σ_ij / √(Σ_ii Σ_jj)`. -/
theorem C46_bivariate_density (h : BvNormal.new mu S rho = .ok d) (hm : ∀ i, (mu i).Is (m i)) (hS : ∀ i, (S i).Is (s i))
    (hr : rho.Is r) (h1 : |r| < 1) :
    ∃ C : Matrix (Fin 2) (Fin 2) ℝ, (∀ i j, (d.covariance i j).Is (C i j)) ∧ C.IsSymm ∧ 0 < C.det ∧
      (∀ i, (BvNormal.mean d i).Is (m i)) ∧ (∀ i, (BvNormal.variance d i).Is (C i i)) ∧
      (∀ i j, (d.correlation i j).Is (C i j / √(C i i * C j j))) ∧
      ∀ (x : Fin 2 → F64) (t : Fin 2 → ℝ), (∀ i, (x i).Is (t i)) →
        (d.z x).Is ((t - m) ⬝ᵥ (C⁻¹ *ᵥ (t - m))) ∧
        (d.pdf x).Is (Real.exp (-((t - m) ⬝ᵥ (C⁻¹ *ᵥ (t - m))) / 2) / (2 * π * √C.det)) := by
  obtain ⟨hp, -, -, rfl⟩ := BvNormal.new_ok.1 h
  have hs : ∀ i, 0 < s i := fun i => pos_of_lt (hp i) (hS i)
  have hr1 : 0 < 1 - r ^ 2 := by nlinarith [(abs_lt.1 h1).1, (abs_lt.1 h1).2]
  have q0 : 0 < √(s 0) := sqrt_pos.2 (hs 0)
  have q1 : 0 < √(s 1) := sqrt_pos.2 (hs 1)
  have e0 := Real.sq_sqrt (hs 0).le
  have e1 := Real.sq_sqrt (hs 1).le
  have hdet := bvCov_det hs r
  have hdet0 : 0 < (bvCov s r).det := by rw [hdet]; have := hs 0; have := hs 1; positivity
  have hm0 := hm 0; have hm1 := hm 1; have hS0 := hS 0; have hS1 := hS 1
  have p0 := hs 0; have p1 := hs 1
  refine ⟨bvCov s r, fun i j => bv_cov_is hS hr hs i j, ?_, hdet0, hm, ?_, ?_, ?_⟩
  · ext i j; fin_cases i <;> fin_cases j <;> simp [bvCov]
  · intro i; fin_cases i
    · exact hS 0
    · exact hS 1
  · have c : r * (√(s 0) * √(s 1)) / √(s 0 * s 1) = r := by
      rw [Real.sqrt_mul (hs 0).le]; field_simp
    have c' : r * (√(s 0) * √(s 1)) / √(s 1 * s 0) = r := by rw [mul_comm (s 1), c]
    intro i j; fin_cases i <;> fin_cases j
    · refine (Is.one : (1 : F64).Is 1).congr ?_
      show (1 : ℝ) = s 0 / √(s 0 * s 0)
      rw [Real.sqrt_mul_self (hs 0).le, div_self (hs 0).ne']
    · exact hr.congr c.symm
    · exact hr.congr c'.symm
    · refine (Is.one : (1 : F64).Is 1).congr ?_
      show (1 : ℝ) = s 1 / √(s 1 * s 1)
      rw [Real.sqrt_mul_self (hs 1).le, div_self (hs 1).ne']
  · intro x t hx
    have hx0 := hx 0; have hx1 := hx 1
    have hz : (BvNormal.z ⟨mu, S, rho⟩ x).Is ((t - m) ⬝ᵥ ((bvCov s r)⁻¹ *ᵥ (t - m))) := by
      unfold BvNormal.z
      dsimp only
      refine Is.congr (r := ((t 0 - m 0) ^ 2 / s 0 - 2 * r * (t 0 - m 0) * (t 1 - m 1) / √(s 0) / √(s 1) +
        (t 1 - m 1) ^ 2 / s 1) / (1 - r * r)) (by fev) ?_
      have hrr : 1 - r * r ≠ 0 := by rw [← sq]; exact hr1.ne'
      rw [Matrix.inv_def, Ring.inverse_eq_inv', hdet]
      simp only [bvCov, adjugate_fin_two_of, smul_mulVec, dotProduct_smul, smul_eq_mul]
      simp [Matrix.mulVec, dotProduct, Fin.sum_univ_two]
      generalize √(s 0) = a0 at *
      generalize √(s 1) = a1 at *
      rw [← e0, ← e1]
      have : 1 - r ^ 2 ≠ 0 := hr1.ne'
      rw [← sq] at hrr ⊢
      field_simp
      ring
    refine ⟨hz, ?_⟩
    unfold BvNormal.pdf
    dsimp only
    refine Is.congr (r := Real.exp (-((t - m) ⬝ᵥ ((bvCov s r)⁻¹ *ᵥ (t - m))) / 2) /
      (π * 2 * √(s 0) * √(s 1) * √(1 - r * r))) ?_ ?_
    · have hrr : 0 < 1 - r * r := by rw [← sq]; exact hr1
      fev
    · rw [hdet, Real.sqrt_mul (by positivity), Real.sqrt_mul (by positivity), ← sq, mul_comm π 2]
      ring_nf

example : ∃ d, BvNormal.new ![fin 0, fin 1] ![fin 1, fin 4] (fin (1/2)) = .ok d :=
  ⟨_, BvNormal.new_ok.2 ⟨fun i => by fin_cases i <;> exact fin_lt_fin.2 (by norm_num), fin_le_fin.2 (by norm_num),
    fin_le_fin.2 (by norm_num), rfl⟩⟩

/-! ### C47 -/

theorem log_lt_self_aux {t : ℝ} (ht : 0 < t) : Real.log (2 * t) < t := by
  have h1 : Real.log (2 * t / Real.exp 1) ≤ 2 * t / Real.exp 1 - 1 := Real.log_le_sub_one_of_pos (by positivity)
  rw [Real.log_div (by positivity) (Real.exp_pos 1).ne', Real.log_exp] at h1
  have h2 : 2 * t / Real.exp 1 < t := by
    rw [div_lt_iff₀ (Real.exp_pos 1)]
    have : 2 < Real.exp 1 := by have := Real.add_one_lt_exp (one_ne_zero); linarith
    nlinarith
  linarith

/-- C47 (violated): for every bivariate normal with |ρ| < 1 the reported entropy strictly exceeds
`1 + ln 2π + ½ ln det Σ`, where Σ is the matrix returned by `covariance()`. -/
theorem C47_bivariate_entropy_violated (h : BvNormal.new mu S rho = .ok d) (hS : ∀ i, (S i).Is (s i))
    (hr : rho.Is r) (h1 : |r| < 1) :
    ∃ C : Matrix (Fin 2) (Fin 2) ℝ, (∀ i j, (d.covariance i j).Is (C i j)) ∧
      ∃ e, d.shannonEntropy.Is e ∧ 1 + Real.log (2 * π) + 1 / 2 * Real.log C.det < e := by
  obtain ⟨hp, -, -, rfl⟩ := BvNormal.new_ok.1 h
  have hs : ∀ i, 0 < s i := fun i => pos_of_lt (hp i) (hS i)
  have hS0 := hS 0; have hS1 := hS 1; have p0 := hs 0; have p1 := hs 1
  obtain ⟨r0, r1⟩ := abs_lt.1 h1
  refine ⟨bvCov s r, fun i j => bv_cov_is hS hr hs i j, 1 + Real.log (π * 2) + 1 / 2 * s 0 * s 1 * (1 - r), ?_, ?_⟩
  · unfold BvNormal.shannonEntropy; dsimp only; fev
  · rw [bvCov_det hs, mul_comm π 2]
    have ht : 0 < s 0 * s 1 * (1 - r) := mul_pos (mul_pos p0 p1) (by linarith)
    have hl : Real.log (s 0 * s 1 * (1 - r ^ 2)) ≤ Real.log (2 * (s 0 * s 1 * (1 - r))) := by
      apply Real.log_le_log
      · exact mul_pos (mul_pos p0 p1) (by nlinarith)
      · have : s 0 * s 1 * (1 - r ^ 2) = s 0 * s 1 * (1 - r) * (1 + r) := by ring
        rw [this]; nlinarith
    have := log_lt_self_aux ht
    linarith

/-- C47 (partial, bivariate): the reported value is `1 + ln 2π + ½ σ₀²σ₁²(1-ρ)`. Missing: the logarithm and the square. -/
theorem C47_bivariate_entropy_partial (h : BvNormal.new mu S rho = .ok d) (hS : ∀ i, (S i).Is (s i)) (hr : rho.Is r) :
    d.shannonEntropy.Is (1 + Real.log (2 * π) + 1 / 2 * (s 0 * s 1 * (1 - r))) := by
  obtain ⟨hp, -, -, rfl⟩ := BvNormal.new_ok.1 h
  have hS0 := hS 0; have hS1 := hS 1
  unfold BvNormal.shannonEntropy; dsimp only
  refine Is.congr (r := 1 + Real.log (π * 2) + 1 / 2 * s 0 * s 1 * (1 - r)) (by fev) ?_
  rw [mul_comm π 2]; ring

/-! ### C48 -/

/-- C48: a bivariate sample is `μ + A z`, `z` the two consecutive standard normal draws, where `A Aᵀ` is the matrix
returned by `covariance()`; also at |ρ| = 1. -/
theorem C48_bivariate_sample (h : BvNormal.new mu S rho = .ok d) (hm : ∀ i, (mu i).Is (m i)) (hS : ∀ i, (S i).Is (s i))
    (hr : rho.Is r) :
    ∃ A C : Matrix (Fin 2) (Fin 2) ℝ, (∀ i j, (d.covariance i j).Is (C i j)) ∧ A * Aᵀ = C ∧
      ∀ {σ : Type} (g : NormalRng σ) (st : σ) (z : Fin 2 → ℝ), (g.draw st).1.Is (z 0) →
        (g.draw (g.draw st).2).1.Is (z 1) →
        (d.sample g st).2 = (g.draw (g.draw st).2).2 ∧ ∀ i, ((d.sample g st).1 i).Is ((m + A *ᵥ z) i) := by
  obtain ⟨hp, hl, hu, rfl⟩ := BvNormal.new_ok.1 h
  have hs : ∀ i, 0 < s i := fun i => pos_of_lt (hp i) (hS i)
  have hS0 := hS 0; have hS1 := hS 1; have p0 := hs 0; have p1 := hs 1
  have hm0 := hm 0; have hm1 := hm 1
  have r0 : -1 ≤ r := ((Is.fin (-1)).le_iff hr).1 hl
  have r1 : r ≤ 1 := (hr.le_iff (Is.fin 1)).1 hu
  have hrr : 0 ≤ 1 - r * r := by nlinarith
  have e0 := Real.sq_sqrt p0.le
  have e1 := Real.sq_sqrt p1.le
  have e2 := Real.sq_sqrt hrr
  refine ⟨!![√(s 0), 0; √(s 1) * r, √(s 1) * √(1 - r * r)], bvCov s r, fun i j => bv_cov_is hS hr hs i j, ?_, ?_⟩
  · generalize √(1 - r * r) = q at *
    rw [bvCov]
    ext i j; fin_cases i <;> fin_cases j
    · simp [Matrix.mul_apply, Fin.sum_univ_two]; rw [← sq, e0]
    · simp [Matrix.mul_apply, Fin.sum_univ_two]; ring
    · simp [Matrix.mul_apply, Fin.sum_univ_two]; ring
    · simp [Matrix.mul_apply, Fin.sum_univ_two]
      linear_combination (r * r + q ^ 2) * e1 + s 1 * e2
  · intro σ g st z h0 h1
    refine ⟨rfl, fun i => ?_⟩
    fin_cases i
    · show (mu 0 + (S 0).sqrt * (g.draw st).1).Is _
      refine Is.congr (r := m 0 + √(s 0) * z 0) (by fev) ?_
      simp [Matrix.mulVec, dotProduct, Fin.sum_univ_two]
    · show (mu 1 + (S 1).sqrt * ((g.draw st).1 * rho + (g.draw (g.draw st).2).1 * (1 - rho * rho).sqrt)).Is _
      refine Is.congr (r := m 1 + √(s 1) * (z 0 * r + z 1 * √(1 - r * r))) (by fev) ?_
      simp [Matrix.mulVec, dotProduct, Fin.sum_univ_two]; ring

end

/-! ### C47, C49: paired -/
section
variable [FP] [FP.Exact] {mu S : Fin 2 → F64} {m s : Fin 2 → ℝ} {d : PairedNormal}

/-- C47 (violated, paired): for every paired normal the reported entropy strictly exceeds `1 + ln 2π + ½ ln(σ₀²σ₁²)` -/
theorem C47_paired_entropy_violated (h : PairedNormal.new mu S = .ok d) (hS : ∀ i, (S i).Is (s i)) :
    ∃ e, d.shannonEntropy.Is e ∧ 1 + Real.log (2 * π) + 1 / 2 * Real.log (s 0 * s 1) < e := by
  obtain ⟨hp, rfl⟩ := PairedNormal.new_ok.1 h
  have hs : ∀ i, 0 < s i := fun i => pos_of_lt (hp i) (hS i)
  have hS0 := hS 0; have hS1 := hS 1; have p0 := hs 0; have p1 := hs 1
  refine ⟨1 + Real.log (π * 2) + 1 / 2 * s 0 * s 1, ?_, ?_⟩
  · unfold PairedNormal.shannonEntropy; dsimp only; fev
  · have h1 := log_lt_self_aux (mul_pos p0 p1)
    have h2 : Real.log (s 0 * s 1) ≤ Real.log (2 * (s 0 * s 1)) := Real.log_le_log (by positivity) (by nlinarith [mul_pos p0 p1])
    rw [mul_comm π 2]; linarith

theorem paired_pdf_is (h : PairedNormal.new mu S = .ok d) (hm : ∀ i, (mu i).Is (m i)) (hS : ∀ i, (S i).Is (s i))
    {x : Fin 2 → F64} {t : Fin 2 → ℝ} (hx : ∀ i, (x i).Is (t i)) :
    (d.pdf x).Is (gaussianPDFReal (m 0) (s 0).toNNReal (t 0) * gaussianPDFReal (m 1) (s 1).toNNReal (t 1)) := by
  obtain ⟨hp, rfl⟩ := PairedNormal.new_ok.1 h
  have hs : ∀ i, 0 < s i := fun i => pos_of_lt (hp i) (hS i)
  have hS0 := hS 0; have hS1 := hS 1; have p0 := hs 0; have p1 := hs 1
  have hm0 := hm 0; have hm1 := hm 1; have hx0 := hx 0; have hx1 := hx 1
  unfold PairedNormal.pdf PairedNormal.z
  dsimp only
  refine Is.congr (r := Real.exp (-((t 0 - m 0) ^ 2 / s 0 + (t 1 - m 1) ^ 2 / s 1) / 2) / (π * 2 * √(s 0) * √(s 1)))
    (by fev) ?_
  simp only [gaussianPDFReal]
  rw [Real.coe_toNNReal _ p0.le, Real.coe_toNNReal _ p1.le, mul_mul_mul_comm, ← Real.exp_add, ← mul_inv,
    Real.sqrt_mul (by positivity) (s 0), Real.sqrt_mul (by positivity) (s 1), mul_mul_mul_comm,
    Real.mul_self_sqrt (by positivity), div_eq_inv_mul]
  congr 2
  · ring
  · field_simp; ring

/-- C49: a paired normal's density is the product of the two univariate densities with its marginal parameters; mean and
variance are the marginal ones, the covariance is diagonal and the correlation the identity. -/
theorem C49_paired_product (h : PairedNormal.new mu S = .ok d) (hm : ∀ i, (mu i).Is (m i)) (hS : ∀ i, (S i).Is (s i)) :
    (∀ i, (UvNormal.new (mu i) (S i)).toOption.isSome) ∧
    (∀ (x : Fin 2 → F64) (t : Fin 2 → ℝ), (∀ i, (x i).Is (t i)) → ∀ d₀ d₁, UvNormal.new (mu 0) (S 0) = .ok d₀ →
      UvNormal.new (mu 1) (S 1) = .ok d₁ → ∃ p q, (UvNormal.pdf d₀ (x 0)).Is p ∧ (UvNormal.pdf d₁ (x 1)).Is q ∧
        (d.pdf x).Is (p * q)) ∧
    PairedNormal.mean d = mu ∧ PairedNormal.variance d = S ∧
    (∀ i j, (d.covariance i j).Is (if i = j then s i else 0)) ∧
    (∀ i j, (PairedNormal.correlation d i j).Is (if i = j then 1 else 0)) := by
  have hd := h
  obtain ⟨hp, rfl⟩ := PairedNormal.new_ok.1 h
  have hs : ∀ i, 0 < s i := fun i => pos_of_lt (hp i) (hS i)
  refine ⟨fun i => ?_, fun x t hx d₀ d₁ h0 h1 => ?_, rfl, rfl, fun i j => ?_, fun i j => ?_⟩
  · rw [UvNormal.new_ok.2 ⟨hp i, rfl⟩]; rfl
  · obtain ⟨-, rfl⟩ := UvNormal.new_ok.1 h0
    obtain ⟨-, rfl⟩ := UvNormal.new_ok.1 h1
    exact ⟨_, _, normal_pdf_is (d := ⟨mu 0, S 0⟩) (hm 0) (hS 0) (hs 0) (hx 0),
      normal_pdf_is (d := ⟨mu 1, S 1⟩) (hm 1) (hS 1) (hs 1) (hx 1), paired_pdf_is hd hm hS hx⟩
  · fin_cases i <;> fin_cases j
    · exact hS 0
    · exact Is.zero
    · exact Is.zero
    · exact hS 1
  · fin_cases i <;> fin_cases j
    · exact Is.one
    · exact Is.zero
    · exact Is.zero
    · exact Is.one

/-- the form of the log-likelihood in terms of the quadratic forms -/
theorem paired_ll_is (h : PairedNormal.new mu S = .ok d) (hm : ∀ i, (mu i).Is (m i)) (hS : ∀ i, (S i).Is (s i))
    {xs : List (Fin 2 → F64)} {ts : List (Fin 2 → ℝ)} (hx : List.Forall₂ (fun x t => ∀ i, (x i).Is (t i)) xs ts) :
    (d.logLikelihood xs).Is (-(ts.length / 2) * (Real.log (s 0 * s 1) + 2 * Real.log (2 * π) +
      (ts.map fun t => (t 0 - m 0) ^ 2 / s 0 + (t 1 - m 1) ^ 2 / s 1).sum)) := by
  obtain ⟨hp, rfl⟩ := PairedNormal.new_ok.1 h
  have hs : ∀ i, 0 < s i := fun i => pos_of_lt (hp i) (hS i)
  have hS0 := hS 0; have hS1 := hS 1; have p0 := hs 0; have p1 := hs 1
  have hm0 := hm 0; have hm1 := hm 1
  have hsum : (F64.sum (xs.map fun x => (x 0 - mu 0).powi 2 / S 0 + (x 1 - mu 1).powi 2 / S 1)).Is
      (ts.map fun t => (t 0 - m 0) ^ 2 / s 0 + (t 1 - m 1) ^ 2 / s 1).sum := by
    refine Is.sum ?_
    clear h
    induction hx with
    | nil => exact .nil
    | cons hxt _ ih =>
      refine .cons ?_ ih
      have h0 := hxt 0; have h1 := hxt 1
      fev
  unfold PairedNormal.logLikelihood
  dsimp only
  rw [hx.length_eq]
  refine Is.congr (r := -((ts.length : ℝ) / 2) * (Real.log (s 0 * s 1) + 2 * Real.log (π * 2) +
      (ts.map fun t => (t 0 - m 0) ^ 2 / s 0 + (t 1 - m 1) ^ 2 / s 1).sum)) (by fev) (by rw [mul_comm π 2])

/-- C49 (violated): the log-likelihood of a paired normal is not additive over samples: for every accepted paired normal
and every point other than its mean, the log-likelihood of that point taken twice is not twice that of the point. -/
theorem C49_paired_loglik_violated (h : PairedNormal.new mu S = .ok d) (hm : ∀ i, (mu i).Is (m i))
    (hS : ∀ i, (S i).Is (s i)) {x : Fin 2 → F64} {t : Fin 2 → ℝ} (hx : ∀ i, (x i).Is (t i)) (hne : t ≠ m) :
    ∀ l, (d.logLikelihood [x]).Is l → ¬ (d.logLikelihood [x, x]).Is (l + l) := by
  intro l hl hl2
  have hs : ∀ i, 0 < s i := fun i => pos_of_lt ((PairedNormal.new_ok.1 h).1 i) (hS i)
  have e1 := hl.eq (paired_ll_is h hm hS (.cons hx .nil))
  have e2 := hl2.eq (paired_ll_is h hm hS (.cons hx (.cons hx .nil)))
  simp only [List.length_cons, List.length_nil, List.map_cons, List.map_nil, List.sum_cons, List.sum_nil] at e1 e2
  push_cast at e1 e2
  have hQ : (t 0 - m 0) ^ 2 / s 0 + (t 1 - m 1) ^ 2 / s 1 = 0 := by linarith
  have a0 : 0 ≤ (t 0 - m 0) ^ 2 / s 0 := div_nonneg (sq_nonneg _) (hs 0).le
  have a1 : 0 ≤ (t 1 - m 1) ^ 2 / s 1 := div_nonneg (sq_nonneg _) (hs 1).le
  have b0 : (t 0 - m 0) ^ 2 = 0 := by
    have : (t 0 - m 0) ^ 2 / s 0 = 0 := by linarith
    rcases div_eq_zero_iff.1 this with h | h
    · exact h
    · exact absurd h (hs 0).ne'
  have b1 : (t 1 - m 1) ^ 2 = 0 := by
    have : (t 1 - m 1) ^ 2 / s 1 = 0 := by linarith
    rcases div_eq_zero_iff.1 this with h | h
    · exact h
    · exact absurd h (hs 1).ne'
  apply hne
  ext i; fin_cases i
  · have := pow_eq_zero_iff (two_ne_zero) |>.1 b0; simp only [Fin.zero_eta]; linarith
  · have := pow_eq_zero_iff (two_ne_zero) |>.1 b1; simp only [Fin.mk_one]; linarith

/-- C49 (partial): for a single observation the log-likelihood is the log of the density. Missing: additivity for more
than one observation, which is false. -/
theorem C49_paired_loglik_partial (h : PairedNormal.new mu S = .ok d) (hm : ∀ i, (mu i).Is (m i))
    (hS : ∀ i, (S i).Is (s i)) {x : Fin 2 → F64} {t : Fin 2 → ℝ} (hx : ∀ i, (x i).Is (t i)) :
    ∃ p, (d.pdf x).Is p ∧ 0 < p ∧ (d.logLikelihood [x]).Is (Real.log p) := by
  have hs : ∀ i, 0 < s i := fun i => pos_of_lt ((PairedNormal.new_ok.1 h).1 i) (hS i)
  have p0 := hs 0; have p1 := hs 1
  have g0 := gaussianPDFReal_pos (m 0) (s 0).toNNReal (t 0) (by simpa using p0)
  have g1 := gaussianPDFReal_pos (m 1) (s 1).toNNReal (t 1) (by simpa using p1)
  refine ⟨_, paired_pdf_is h hm hS hx, mul_pos g0 g1, (paired_ll_is h hm hS (.cons hx .nil)).congr ?_⟩
  rw [Real.log_mul g0.ne' g1.ne', log_gaussianPDF _ p0, log_gaussianPDF _ p1]
  simp only [List.length_cons, List.length_nil, List.map_cons, List.map_nil, List.sum_cons, List.sum_nil]
  rw [Real.log_mul (x := 2 * π) (y := s 0) (by positivity) p0.ne',
    Real.log_mul (x := 2 * π) (y := s 1) (by positivity) p1.ne',
    Real.log_mul (x := s 0) (y := s 1) p0.ne' p1.ne']
  push_cast; ring

theorem paired_fold_eq (mu : Fin 2 → F64) (xs : List (Fin 2 → F64)) : ∀ (acc : (F64 × F64) × (F64 × F64)),
    xs.foldl (fun (acc : (F64 × F64) × (F64 × F64)) x =>
      let d0 := x 0 - mu 0
      let d1 := x 1 - mu 1
      ((acc.1.1 + d0, acc.1.2 + d1), (acc.2.1 + d0 * d0, acc.2.2 + d1 * d1))) acc =
    (let r0 := (xs.map (· 0)).foldl (fun acc x => let dd := x - mu 0; (acc.1 + dd, acc.2 + dd * dd)) (acc.1.1, acc.2.1)
     let r1 := (xs.map (· 1)).foldl (fun acc x => let dd := x - mu 1; (acc.1 + dd, acc.2 + dd * dd)) (acc.1.2, acc.2.2)
     ((r0.1, r1.1), (r0.2, r1.2))) := by
  induction xs with
  | nil => intro acc; rfl
  | cons x xs ih => intro acc; simp only [List.foldl_cons, List.map_cons]; exact ih _

/-- C49: the paired score consists, coordinate by coordinate, of the univariate scores (C42) -/
theorem C49_paired_score (mu S : Fin 2 → F64) (xs : List (Fin 2 → F64)) (i : Fin 2) :
    (PairedNormal.score ⟨mu, S⟩ xs).mu i = (UvNormal.score ⟨mu i, S i⟩ (xs.map (· i))).mu ∧
    (PairedNormal.score ⟨mu, S⟩ xs).Sigma i = (UvNormal.score ⟨mu i, S i⟩ (xs.map (· i))).Sigma := by
  unfold PairedNormal.score UvNormal.score
  dsimp only
  rw [paired_fold_eq]
  fin_cases i <;> simp

/-- C49: a paired sample is the pair of the two univariate samples driven by consecutive draws -/
theorem C49_paired_sample (h : PairedNormal.new mu S = .ok d) (hm : ∀ i, (mu i).Is (m i)) (hS : ∀ i, (S i).Is (s i))
    {σ : Type} (g : NormalRng σ) (st : σ) :
    (UvNormal.sample ⟨mu 0, S 0⟩ g st).1 = .ok ((d.sample g st).1 0) ∧
    (UvNormal.sample ⟨mu 1, S 1⟩ g (UvNormal.sample ⟨mu 0, S 0⟩ g st).2).1 = .ok ((d.sample g st).1 1) ∧
    (d.sample g st).2 = (UvNormal.sample ⟨mu 1, S 1⟩ g (UvNormal.sample ⟨mu 0, S 0⟩ g st).2).2 := by
  obtain ⟨hp, rfl⟩ := PairedNormal.new_ok.1 h
  have hs : ∀ i, 0 < s i := fun i => pos_of_lt (hp i) (hS i)
  have f : ∀ i, ((S i).sqrt).isFinite := fun i => ((hS i).sqrt (hs i).le).isFinite
  unfold UvNormal.sample PairedNormal.sample
  simp only [f, if_true]
  exact ⟨rfl, rfl, trivial⟩

end

example : ∃ d, PairedNormal.new ![fin 0, fin 1] ![fin 1, fin 4] = .ok d :=
  ⟨_, PairedNormal.new_ok.2 ⟨fun i => by fin_cases i <;> exact fin_lt_fin.2 (by norm_num), rfl⟩⟩

end Rstat
