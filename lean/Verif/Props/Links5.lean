import Verif.Spec.Links
import Verif.Props.Normal2
import Verif.Props.MvNormal

/-! Property C243: the normal families agree where they describe the same law. -/
set_option linter.unusedSectionVars false
namespace Rstat
open F64 Consts Spec MeasureTheory ProbabilityTheory Real Matrix

/-- the Cholesky factor is unique -/
theorem cholesky_unique {n : ℕ} {L L' : Matrix (Fin n) (Fin n) ℝ} (h0 : ∀ i j, i < j → L i j = 0) (h0' : ∀ i j, i < j → L' i j = 0)
    (h1 : ∀ i, 0 < L i i) (h1' : ∀ i, 0 < L' i i) (h : L * Lᵀ = L' * L'ᵀ) : L = L' := by
  have key : ∀ k : ℕ, ∀ j : Fin n, (j : ℕ) = k → ∀ i, L i j = L' i j := by
    intro k
    induction k using Nat.strong_induction_on with
    | _ k ih =>
      intro j hj
      have ihj : ∀ l : Fin n, l < j → ∀ i, L i l = L' i l := fun l hl i => ih l (by omega) l rfl i
      have row : ∀ i, L i j * L j j = L' i j * L' j j := fun i => by
        have e := congrFun (congrFun h i) j
        simp only [Matrix.mul_apply, Matrix.transpose_apply] at e
        rw [← Finset.add_sum_erase _ _ (Finset.mem_univ j), ← Finset.add_sum_erase _ _ (Finset.mem_univ j)] at e
        have es : ∑ x ∈ Finset.univ.erase j, L i x * L j x = ∑ x ∈ Finset.univ.erase j, L' i x * L' j x := by
          refine Finset.sum_congr rfl fun x hx => ?_
          rcases lt_or_gt_of_ne (Finset.ne_of_mem_erase hx) with hl | hl
          · rw [ihj x hl i, ihj x hl j]
          · rw [h0 j x hl, h0' j x hl, mul_zero, mul_zero]
        linarith
      have dj : L j j = L' j j := by
        have := row j
        nlinarith [h1 j, h1' j]
      intro i
      have := row i
      rw [dj] at this
      exact mul_right_cancel₀ (h1' j).ne' this
  ext i j; exact key j j rfl i

/-- the covariance matrix of a non-degenerate bivariate normal is positive definite -/
theorem bvCov_posDef {s : Fin 2 → ℝ} {r : ℝ} (hs : ∀ i, 0 < s i) (h1 : |r| < 1) : (bvCov s r).PosDef := by
  have p0 := hs 0; have p1 := hs 1
  have q0 := Real.sqrt_pos.2 p0; have q1 := Real.sqrt_pos.2 p1
  have hr2 : 0 < 1 - r * r := by have := abs_lt.1 h1; nlinarith
  have hq := Real.sqrt_pos.2 hr2
  have e0 := Real.mul_self_sqrt p0.le
  have e1 := Real.mul_self_sqrt p1.le
  have e2 := Real.mul_self_sqrt hr2.le
  set A : Matrix (Fin 2) (Fin 2) ℝ := !![√(s 0), 0; √(s 1) * r, √(s 1) * √(1 - r * r)] with hA
  have hAA : A * Aᵀ = bvCov s r := by
    rw [bvCov, hA]
    ext i j; fin_cases i <;> fin_cases j
    · simp [Matrix.mul_apply, Fin.sum_univ_two]; rw [e0]
    · simp [Matrix.mul_apply, Fin.sum_univ_two]; ring
    · simp [Matrix.mul_apply, Fin.sum_univ_two]; ring
    · simp [Matrix.mul_apply, Fin.sum_univ_two]
      linear_combination (r * r + √(1 - r * r) * √(1 - r * r)) * e1 + s 1 * e2
  rw [← hAA]
  refine Matrix.PosDef.mul_conjTranspose_self A (Matrix.vecMul_injective_of_isUnit ?_)
  rw [Matrix.isUnit_iff_isUnit_det, hA, Matrix.det_fin_two_of]
  exact isUnit_iff_ne_zero.2 (by have := mul_pos q0 (mul_pos q1 hq); linarith)

section
variable [FP] [FP.Exact] {n : ℕ}

/-- C243: `IsotropicNormal(μ, s)` and `DiagonalNormal(μ, [s, …, s])` agree on every method, and return the same sample for the same draws. -/
theorem C243_isotropic_diagonal {mu : Fin n → F64} {S : F64} {m : Fin n → ℝ} {v : ℝ} {d : IsoNormal n} {e : DiagNormal n}
    (h : IsoNormal.new mu S = .ok d) (he : DiagNormal.new mu (fun _ => S) = .ok e) (hm : ∀ i, (mu i).Is (m i)) (hS : S.Is v) :
    d.mean = e.mean ∧ d.modes = e.modes ∧ d.variance = e.variance ∧ d.covariance = e.covariance ∧
    SameVal d.shannonEntropy e.shannonEntropy ∧
    (∀ (x : Fin n → F64) (t : Fin n → ℝ), (∀ i, (x i).Is (t i)) →
      SameVal (d.dMahalanobisSquared x) (e.dMahalanobisSquared x) ∧ SameVal (d.pdf x) (e.pdf x)) ∧
    (∀ {σ : Type} (g : NormalRng σ) (s : σ), d.sample g s = e.sample g s) := by
  have hv := (iso_facts h hS).1
  have dd := (iso_facts h hS).2.2.2.2.1
  have ed := (diag_facts (v := fun _ => v) he fun _ => hS).2.2.2.2.1
  have pv : 0 < v ^ n := by positivity
  rw [Finset.prod_const, Finset.card_univ, Fintype.card_fin] at ed
  refine ⟨?_, ?_, ?_, ?_, ⟨_, mvEntropy_is dd pv, mvEntropy_is ed pv⟩, fun x t hx => ?_, ?_⟩
  · obtain ⟨-, rfl⟩ := IsoNormal.new_ok.1 h; obtain ⟨-, rfl⟩ := DiagNormal.new_ok.1 he; rfl
  · obtain ⟨-, rfl⟩ := IsoNormal.new_ok.1 h; obtain ⟨-, rfl⟩ := DiagNormal.new_ok.1 he; rfl
  · obtain ⟨-, rfl⟩ := IsoNormal.new_ok.1 h; obtain ⟨-, rfl⟩ := DiagNormal.new_ok.1 he; rfl
  · obtain ⟨-, rfl⟩ := IsoNormal.new_ok.1 h; obtain ⟨-, rfl⟩ := DiagNormal.new_ok.1 he; rfl
  · have e1 := iso_mahalanobis_is h hm hS hx
    have e2 := diag_mahalanobis_is (v := fun _ => v) he hm (fun _ => hS) hx
    exact ⟨⟨_, e1, e2⟩, _, mvPdf_is e1 dd pv, mvPdf_is e2 ed pv⟩
  · obtain ⟨-, rfl⟩ := IsoNormal.new_ok.1 h; obtain ⟨-, rfl⟩ := DiagNormal.new_ok.1 he; intro σ g s; rfl

/-- C243: `DiagonalNormal(μ, v)` and the dense `MvNormal(μ, diag v)`: mean, modes, variance, covariance and entropy agree. -/
theorem C243_diagonal_dense_partial [Lapack] [Lapack.Exact] {mu V : Fin n → F64} {S : Fin n → Fin n → F64} {m v : Fin n → ℝ} {d : DiagNormal n}
    {e : MvNormal n} (h : DiagNormal.new mu V = .ok d) (he : MvNormal.new mu S = .ok e) (hm : ∀ i, (mu i).Is (m i))
    (hV : ∀ i, (V i).Is (v i)) (hS : ∀ i j, (S i j).Is (if i = j then v i else 0)) :
    d.mean = e.mean ∧ d.modes = e.modes ∧ (∀ i, SameVal (d.variance i) (e.variance i)) ∧ (∀ i j, SameVal (d.covariance i j) (e.covariance i j)) ∧
    SameVal d.shannonEntropy e.shannonEntropy := by
  have hv := (diag_facts h hV).1
  have dd := (diag_facts h hV).2.2.2.2.1
  have hS' : ∀ i j, (S i j).Is (diagonal v i j) := fun i j => by simpa [diagonal_apply] using hS i j
  have hM := diag_posDef h hV
  obtain ⟨L, -, -, -, -, ed, -⟩ := mv_facts he hS' hM
  obtain ⟨-, -, ec, ev, -⟩ := C52_mv_entropy_moments he hm hS' hM
  obtain ⟨-, -, dc, dv, -⟩ := C52_diag_entropy_moments h hm hV
  rw [det_diagonal] at ed
  have pv : 0 < ∏ i, v i := Finset.prod_pos fun i _ => hv i
  refine ⟨?_, ?_, fun i => ⟨_, dv i, (ev i).congr (by simp)⟩, fun i j => ⟨_, dc i j, ec i j⟩, ⟨_, mvEntropy_is dd pv, mvEntropy_is ed pv⟩⟩
  · obtain ⟨-, rfl⟩ := DiagNormal.new_ok.1 h; obtain ⟨-, rfl⟩ := MvNormal.new_ok.1 he; rfl
  · obtain ⟨-, rfl⟩ := DiagNormal.new_ok.1 h; obtain ⟨-, rfl⟩ := MvNormal.new_ok.1 he; rfl

/-- the dense distance for a diagonal covariance -/
theorem dense_diag_mahalanobis [Lapack] [Lapack.Exact] {mu : Fin n → F64} {S : Fin n → Fin n → F64} {m v : Fin n → ℝ}
    {e : MvNormal n} (he : MvNormal.new mu S = .ok e) (hm : ∀ i, (mu i).Is (m i)) (hS : ∀ i j, (S i j).Is (if i = j then v i else 0))
    (hv : ∀ i, 0 < v i) {x : Fin n → F64} {t : Fin n → ℝ} (hx : ∀ i, (x i).Is (t i)) :
    (e.dMahalanobisSquared x).Is (∑ i, (t i - m i) ^ 2 / v i) ∧ e.det.Is (∏ i, v i) := by
  have hS' : ∀ i j, (S i j).Is (diagonal v i j) := fun i j => by simpa [diagonal_apply] using hS i j
  have hM : (diagonal v).PosDef := Matrix.PosDef.diagonal hv
  obtain ⟨L, -, -, -, -, ed, -⟩ := mv_facts he hS' hM
  rw [det_diagonal] at ed
  refine ⟨(mv_mahalanobis_is he hm hS' hM hx).congr (Finset.sum_congr rfl fun i _ => ?_), ed⟩
  have hinv : (diagonal v)⁻¹ = diagonal fun i => (v i)⁻¹ := by
    refine Matrix.inv_eq_left_inv ?_
    rw [diagonal_mul_diagonal]
    rw [← diagonal_one]
    congr 1; funext i; exact inv_mul_cancel₀ (hv i).ne'
  rw [hinv]
  rw [Finset.sum_eq_single i]
  · simp; ring
  · intro j _ hj; simp [diagonal_apply, Ne.symm hj]
  · simp

/-- C243, violated: in every dimension, for every mean and every variances, there is a point where the densities of `DiagonalNormal(μ, v)` and of
the dense `MvNormal(μ, diag v)` differ, the diagonal one being the greater. -/
theorem C243_diagonal_dense_pdf_violated [Lapack] [Lapack.Exact] (hn : 0 < n) {mu V : Fin n → F64} {S : Fin n → Fin n → F64} {m v : Fin n → ℝ}
    {d : DiagNormal n} {e : MvNormal n} (h : DiagNormal.new mu V = .ok d) (he : MvNormal.new mu S = .ok e) (hm : ∀ i, (mu i).Is (m i))
    (hV : ∀ i, (V i).Is (v i)) (hS : ∀ i j, (S i j).Is (if i = j then v i else 0)) :
    ∃ p q : ℝ, q < p ∧ (d.pdf fun i => fin (m i - 1)).Is p ∧ (e.pdf fun i => fin (m i - 1)).Is q := by
  have hv := (diag_facts h hV).1
  have dd := (diag_facts h hV).2.2.2.2.1
  have pv : 0 < ∏ i, v i := Finset.prod_pos fun i _ => hv i
  have e1 := diag_mahalanobis_is h hm hV (x := fun i => fin (m i - 1)) fun i => Is.fin _
  obtain ⟨e2, ed⟩ := dense_diag_mahalanobis he hm hS hv (x := fun i => fin (m i - 1)) fun i => Is.fin _
  refine ⟨_, _, ?_, mvPdf_is e1 dd pv, mvPdf_is e2 ed pv⟩
  have : Nonempty (Fin n) := ⟨⟨0, hn⟩⟩
  refine div_lt_div_of_pos_right (Real.exp_lt_exp.2 ?_) (Real.sqrt_pos.2 (by positivity))
  have : ∑ i, (m i - 1 - m i) * (1 / v i) * (1 / v i) < ∑ i, (m i - 1 - m i) ^ 2 / v i := by
    refine Finset.sum_lt_sum_of_nonempty Finset.univ_nonempty fun i _ => ?_
    have := hv i
    have h1 : (m i - 1 - m i) * (1 / v i) * (1 / v i) < 0 := by
      rw [show (m i - 1 - m i) * (1 / v i) * (1 / v i) = -(1 / v i * (1 / v i)) by ring]
      exact neg_neg_of_pos (by positivity)
    have h2 : 0 ≤ (m i - 1 - m i) ^ 2 / v i := by positivity
    linarith
  linarith

/-- C243, violated: for the same draws, coordinate `i` of the samples of `DiagonalNormal(μ, v)` and of the dense `MvNormal(μ, diag v)` agree only
if the variance is 1 or the draw is 0. -/
theorem C243_diagonal_dense_sample_violated [Lapack] [Lapack.Exact] {mu V : Fin n → F64} {S : Fin n → Fin n → F64} {m v : Fin n → ℝ}
    {d : DiagNormal n} {e : MvNormal n} (h : DiagNormal.new mu V = .ok d) (he : MvNormal.new mu S = .ok e) (hm : ∀ i, (mu i).Is (m i))
    (hV : ∀ i, (V i).Is (v i)) (hS : ∀ i j, (S i j).Is (if i = j then v i else 0)) {σ : Type} (g : NormalRng σ) (s : σ) (z : Fin n → ℝ)
    (hz : ∀ i : Fin n, (g.nth s i).Is (z i)) (i : Fin n) :
    SameVal ((d.sample g s).1 i) ((e.sample g s).1 i) ↔ v i = 1 ∨ z i = 0 := by
  have hv := (diag_facts h hV).1
  have hS' : ∀ i j, (S i j).Is (diagonal v i j) := fun i j => by simpa [diagonal_apply] using hS i j
  have hM := diag_posDef h hV
  obtain ⟨L, l0, l1, l2, llt, -, -⟩ := mv_facts he hS' hM
  have hmu : e.mu = mu := by obtain ⟨-, rfl⟩ := MvNormal.new_ok.1 he; rfl
  have d1 := diag_sample_is h hm hV g s z hz i
  have hL : L = diagonal fun i => √(v i) := by
    refine cholesky_unique l0 (fun i j hij => by simp [diagonal_apply, hij.ne]) l1 (fun i => by simpa using hv i) ?_
    rw [l2, diagonal_transpose, diagonal_mul_diagonal]
    congr 1; funext i; exact (Real.mul_self_sqrt (hv i).le).symm
  have e1 : ((e.sample g s).1 i).Is (√(v i) * z i + m i) := by
    show (mvMult e.lt (fun i => g.nth s i) i + e.mu i).Is _
    rw [hmu]
    refine ((mvMult_is llt hz i).add (hm i)).congr ?_
    congr 1
    rw [hL, Finset.sum_eq_single i]
    · simp
    · intro j _ hj; simp [diagonal_apply, Ne.symm hj]
    · simp
  have hq : √(v i) * √(v i) = v i := Real.mul_self_sqrt (hv i).le
  have q0 := Real.sqrt_pos.2 (hv i)
  constructor
  · rintro ⟨u, h1, h2⟩
    have e3 : m i + v i * z i = √(v i) * z i + m i := (d1.eq h1).trans (e1.eq h2).symm
    have e4 : z i * √(v i) * (√(v i) - 1) = 0 := by linear_combination e3 + z i * hq
    rcases mul_eq_zero.1 e4 with e4 | e4
    · rcases mul_eq_zero.1 e4 with e4 | e4
      · exact Or.inr e4
      · exact absurd e4 q0.ne'
    · left; rw [← hq, sub_eq_zero.1 e4, mul_one]
  · rintro (h1 | h1)
    · exact ⟨_, d1, e1.congr (by rw [h1, Real.sqrt_one]; ring)⟩
    · exact ⟨_, d1, e1.congr (by rw [h1]; ring)⟩

/-- C243: the independent `BvNormal` and the `PairedNormal` with the same parameters agree on every method, and return the same sample for the same
draws. -/
theorem C243_bivariate_paired {mu S : Fin 2 → F64} {m s : Fin 2 → ℝ} {d : BvNormal} {e : PairedNormal} (h : BvNormal.independent mu S = .ok d)
    (he : PairedNormal.new mu S = .ok e) (hm : ∀ i, (mu i).Is (m i)) (hS : ∀ i, (S i).Is (s i)) :
    d.mean = e.mean ∧ d.modes = e.modes ∧ d.variance = e.variance ∧ (∀ i j, SameVal (d.covariance i j) (e.covariance i j)) ∧
    d.correlation = e.correlation ∧ SameVal d.shannonEntropy e.shannonEntropy ∧
    (∀ (x : Fin 2 → F64) (t : Fin 2 → ℝ), (∀ i, (x i).Is (t i)) → SameVal (d.z x) (e.z x) ∧ SameVal (d.pdf x) (e.pdf x)) ∧
    (∀ {σ : Type} (g : NormalRng σ) (st : σ) (z : Fin 2 → ℝ), (g.draw st).1.Is (z 0) → (g.draw (g.draw st).2).1.Is (z 1) →
      (d.sample g st).2 = (e.sample g st).2 ∧ ∀ i, SameVal ((d.sample g st).1 i) ((e.sample g st).1 i)) := by
  obtain ⟨hp, -, -, rfl⟩ := BvNormal.new_ok.1 h
  obtain ⟨-, rfl⟩ := PairedNormal.new_ok.1 he
  have hs : ∀ i, 0 < s i := fun i => pos_of_lt (hp i) (hS i)
  have hS0 := hS 0; have hS1 := hS 1; have p0 := hs 0; have p1 := hs 1
  have hm0 := hm 0; have hm1 := hm 1
  have q0 := Real.sqrt_pos.2 p0; have q1 := Real.sqrt_pos.2 p1
  have hz : (0 : F64).Is 0 := Is.zero
  have hzz : ∀ (x : Fin 2 → F64) (t : Fin 2 → ℝ), (∀ i, (x i).Is (t i)) →
      (BvNormal.z ⟨mu, S, 0⟩ x).Is ((t 0 - m 0) ^ 2 / s 0 + (t 1 - m 1) ^ 2 / s 1) ∧
      (PairedNormal.z ⟨mu, S⟩ x).Is ((t 0 - m 0) ^ 2 / s 0 + (t 1 - m 1) ^ 2 / s 1) := fun x t hx => by
    have hx0 := hx 0; have hx1 := hx 1
    constructor
    · refine Is.congr (r := ((t 0 - m 0) ^ 2 / s 0 - 2 * 0 * (t 0 - m 0) * (t 1 - m 1) / √(s 0) / √(s 1) + (t 1 - m 1) ^ 2 / s 1) / (1 - 0 * 0)) ?_ (by ring)
      unfold BvNormal.z; dsimp only; fev
    · unfold PairedNormal.z; dsimp only; fev
  refine ⟨rfl, rfl, rfl, fun i j => ?_, rfl, ?_, fun x t hx => ?_, fun {σ} g st z h0 h1 => ⟨rfl, fun i => ?_⟩⟩
  · have hc := bv_cov_is (mu := mu) hS hz hs i j
    have hc' := (C49_paired_product he hm hS).2.2.2.2.1 i j
    refine ⟨_, hc, hc'.congr ?_⟩
    fin_cases i <;> fin_cases j <;> simp [bvCov]
  · have e1 : (F64.fin (1 / 2) * S 0 * S 1).Is (1 / 2 * s 0 * s 1) := ((Is.fin _).mul hS0).mul hS1
    have e0 : (1 + PI_2.ln).Is (1 + Real.log (π * 2)) := by fev
    exact ⟨_, (e0.add (e1.mul (Is.one.sub hz))).congr (by ring), e0.add e1⟩
  · obtain ⟨z1, z2⟩ := hzz x t hx
    refine ⟨⟨_, z1, z2⟩, Real.exp (-((t 0 - m 0) ^ 2 / s 0 + (t 1 - m 1) ^ 2 / s 1) / 2) / (π * 2 * √(s 0) * √(s 1)), ?_, ?_⟩
    · refine Is.congr (r := Real.exp (-((t 0 - m 0) ^ 2 / s 0 + (t 1 - m 1) ^ 2 / s 1) / 2) / (π * 2 * √(s 0) * √(s 1) * √(1 - 0 * 0))) ?_ (by simp)
      unfold BvNormal.pdf; dsimp only
      have hpos : (0:ℝ) < √(1 - 0 * 0) := by norm_num
      fev
    · unfold PairedNormal.pdf; dsimp only; fev
  · fin_cases i
    · exact ⟨_, hm0.add ((hS0.sqrt p0.le).mul h0), hm0.add ((hS0.sqrt p0.le).mul h0)⟩
    · have e : (1 - (0 : F64) * 0).sqrt.Is 1 := ((Is.one.sub (hz.mul hz)).sqrt (by norm_num)).congr (by norm_num)
      refine ⟨_, (hm1.add ((hS1.sqrt p1.le).mul ((h0.mul hz).add (h1.mul e)))).congr ?_, hm1.add ((hS1.sqrt p1.le).mul h1)⟩
      ring

/-- C243: `BvNormal(μ, S, ρ)`, |ρ| < 1, and the dense `MvNormal` with the covariance matrix it reports: mean, modes, variance and covariance agree,
and the same draws give the same sample. -/
theorem C243_bivariate_dense_partial [Lapack] [Lapack.Exact] {mu S : Fin 2 → F64} {rho : F64} {m s : Fin 2 → ℝ} {r : ℝ} {d : BvNormal} {e : MvNormal 2}
    (h : BvNormal.new mu S rho = .ok d) (he : MvNormal.new mu d.covariance = .ok e) (hm : ∀ i, (mu i).Is (m i)) (hS : ∀ i, (S i).Is (s i))
    (hr : rho.Is r) (h1 : |r| < 1) :
    d.mean = e.mean ∧ d.modes = e.modes ∧ (∀ i, SameVal (d.variance i) (e.variance i)) ∧ d.covariance = e.covariance ∧
    (∀ {σ : Type} (g : NormalRng σ) (st : σ) (z : Fin 2 → ℝ), (∀ i : Fin 2, (g.nth st i).Is (z i)) →
      (d.sample g st).2 = (e.sample g st).2 ∧ ∀ i, SameVal ((d.sample g st).1 i) ((e.sample g st).1 i)) := by
  obtain ⟨hp, -, -, rfl⟩ := BvNormal.new_ok.1 h
  have hs : ∀ i, 0 < s i := fun i => pos_of_lt (hp i) (hS i)
  have hS0 := hS 0; have hS1 := hS 1; have p0 := hs 0; have p1 := hs 1
  have hm0 := hm 0; have hm1 := hm 1
  have q0 := Real.sqrt_pos.2 p0; have q1 := Real.sqrt_pos.2 p1
  have hr2 : 0 < 1 - r * r := by have := abs_lt.1 h1; nlinarith
  have hq := Real.sqrt_pos.2 hr2
  have hc := bv_cov_is (mu := mu) hS hr hs
  have e0 := Real.mul_self_sqrt p0.le
  have e1 := Real.mul_self_sqrt p1.le
  have e2 := Real.mul_self_sqrt hr2.le
  set A : Matrix (Fin 2) (Fin 2) ℝ := !![√(s 0), 0; √(s 1) * r, √(s 1) * √(1 - r * r)] with hA
  have hAA : A * Aᵀ = bvCov s r := by
    rw [bvCov, hA]
    ext i j; fin_cases i <;> fin_cases j
    · simp [Matrix.mul_apply, Fin.sum_univ_two]; rw [e0]
    · simp [Matrix.mul_apply, Fin.sum_univ_two]; ring
    · simp [Matrix.mul_apply, Fin.sum_univ_two]; ring
    · simp [Matrix.mul_apply, Fin.sum_univ_two]
      linear_combination (r * r + √(1 - r * r) * √(1 - r * r)) * e1 + s 1 * e2
  have hM := bvCov_posDef hs h1
  obtain ⟨L, l0, l1, l2, llt, -, -⟩ := mv_facts he hc hM
  have hL : L = A := by
    refine cholesky_unique l0 (fun i j hij => ?_) l1 (fun i => ?_) (l2.trans hAA.symm)
    · fin_cases i <;> fin_cases j <;> simp_all
    · fin_cases i
      · simpa [hA] using p0
      · simp [hA]; positivity
  have hmu : e.mu = mu := by obtain ⟨-, rfl⟩ := MvNormal.new_ok.1 he; rfl
  refine ⟨?_, ?_, fun i => ?_, ?_, fun {σ} g st z hz => ⟨?_, fun i => ?_⟩⟩
  · obtain ⟨-, rfl⟩ := MvNormal.new_ok.1 he; rfl
  · obtain ⟨-, rfl⟩ := MvNormal.new_ok.1 he; rfl
  · obtain ⟨-, rfl⟩ := MvNormal.new_ok.1 he
    refine ⟨_, hS i, ?_⟩
    fin_cases i
    · exact hS0
    · exact hS1
  · obtain ⟨-, rfl⟩ := MvNormal.new_ok.1 he; rfl
  · rfl
  · have hz0 : (g.draw st).1.Is (z 0) := hz 0
    have hz1 : (g.draw (g.draw st).2).1.Is (z 1) := hz 1
    have es : ((e.sample g st).1 i).Is ((∑ j, if j ≤ i then A i j * z j else 0) + m i) := by
      show (mvMult e.lt (fun i => g.nth st i) i + e.mu i).Is _
      rw [hmu, ← hL]
      exact (mvMult_is llt hz i).add (hm i)
    refine ⟨_, ?_, es⟩
    fin_cases i
    · show (mu 0 + (S 0).sqrt * (g.draw st).1).Is _
      refine Is.congr (r := m 0 + √(s 0) * z 0) (by fev) ?_
      simp [hA, Fin.sum_univ_two]; ring
    · show (mu 1 + (S 1).sqrt * ((g.draw st).1 * rho + (g.draw (g.draw st).2).1 * (1 - rho * rho).sqrt)).Is _
      refine Is.congr (r := m 1 + √(s 1) * (z 0 * r + z 1 * √(1 - r * r))) (by fev) ?_
      simp [hA, Fin.sum_univ_two]; ring

/-- C243, violated: for a negative correlation the dense constructor refuses the covariance matrix of the bivariate normal; for the others the two
entropies differ, the bivariate one being the greater. -/
theorem C243_bivariate_dense_violated [Lapack] [Lapack.Exact] {mu S : Fin 2 → F64} {rho : F64} {m s : Fin 2 → ℝ} {r : ℝ} {d : BvNormal}
    (h : BvNormal.new mu S rho = .ok d) (hm : ∀ i, (mu i).Is (m i)) (hS : ∀ i, (S i).Is (s i)) (hr : rho.Is r) (h1 : |r| < 1) :
    (r < 0 → ∀ e, MvNormal.new mu d.covariance ≠ .ok e) ∧
    (0 ≤ r → ∃ e : MvNormal 2, MvNormal.new mu d.covariance = .ok e ∧ ∃ p q : ℝ, q < p ∧ d.shannonEntropy.Is p ∧ e.shannonEntropy.Is q) := by
  obtain ⟨C, hC, p, hp, hlt⟩ := C47_bivariate_entropy_violated h hS hr h1
  obtain ⟨hp0, -, -, rfl⟩ := BvNormal.new_ok.1 h
  have hs : ∀ i, 0 < s i := fun i => pos_of_lt (hp0 i) (hS i)
  have hc := bv_cov_is (mu := mu) hS hr hs
  have hCe : C = bvCov s r := by ext i j; exact (hC i j).eq (hc i j)
  have q0 := Real.sqrt_pos.2 (hs 0); have q1 := Real.sqrt_pos.2 (hs 1)
  constructor
  · intro hr0 e he
    have h01 := (MvNormal.new_ok.1 he).1 0 1
    have := (Is.zero.le_iff (hc 0 1)).1 h01
    simp [bvCov] at this
    have := mul_pos q0 q1
    nlinarith
  · intro hr0
    have hok : ∃ e : MvNormal 2, MvNormal.new mu (BvNormal.covariance ⟨mu, S, rho⟩) = .ok e := ⟨_, MvNormal.new_ok.2 ⟨fun i j => by
      refine (Is.zero.le_iff (hc i j)).2 ?_
      have h0 := hs 0; have h1 := hs 1
      fin_cases i <;> fin_cases j <;> simp [bvCov] <;> positivity, rfl⟩⟩
    obtain ⟨e, he⟩ := hok
    have hdet := bvCov_det hs r
    have hr2 : 0 < 1 - r ^ 2 := by have := abs_lt.1 h1; nlinarith
    have hd : 0 < (bvCov s r).det := by rw [hdet]; have h0 := hs 0; have h1 := hs 1; positivity
    obtain ⟨L, -, -, -, -, ed, -⟩ := mv_facts he hc (bvCov_posDef hs h1)
    refine ⟨e, he, p, _, ?_, hp, mvEntropy_is ed hd⟩
    rw [hCe] at hlt
    push_cast
    linarith

/-- C243: a dense `MvNormal` of dimension one is the univariate `Normal`: mean, variance, entropy, density, and the sample for the same draw. -/
theorem C243_dense_univariate [Lapack] [Lapack.Exact] {a b : F64} {μ v : ℝ} {d : MvNormal 1} {u : UvNormal}
    (h : MvNormal.new (fun _ => a) (fun _ _ => b) = .ok d) (hu : UvNormal.new a b = .ok u) (ha : a.Is μ) (hb : b.Is v) :
    d.mean 0 = u.mean ∧ d.variance 0 = u.variance ∧ SameVal d.shannonEntropy u.shannonEntropy ∧
    SameOn Set.univ (fun x => d.pdf fun _ => x) u.pdf ∧
    (∀ {σ : Type} (g : NormalRng σ) (s : σ) (z : ℝ), (g.draw s).1.Is z →
      ∃ y, (u.sample g s).1 = .ok y ∧ SameVal ((d.sample g s).1 0) y ∧ (d.sample g s).2 = (u.sample g s).2) := by
  obtain ⟨hb0, rfl⟩ := UvNormal.new_ok.1 hu
  have hv := pos_of_lt hb0 hb
  have hS : ∀ i j : Fin 1, b.Is (if i = j then v else 0) := fun i j => by rw [if_pos (Subsingleton.elim i j)]; exact hb
  have hM : (diagonal fun _ : Fin 1 => v).PosDef := Matrix.PosDef.diagonal fun _ => hv
  have hS' : ∀ i j : Fin 1, b.Is ((diagonal fun _ : Fin 1 => v) i j) := fun i j => by
    rw [diagonal_apply]; exact hS i j
  obtain ⟨L, l0, l1, l2, llt, ld, -⟩ := mv_facts h hS' hM
  have hmu : d.mu = fun _ => a := by obtain ⟨-, rfl⟩ := MvNormal.new_ok.1 h; rfl
  have hL : L 0 0 = √v := by
    have e := congrFun (congrFun l2 0) 0
    simp [Matrix.mul_apply] at e
    rw [← e, Real.sqrt_mul_self (l1 0).le]
  rw [det_diagonal] at ld
  have ld' : d.det.Is v := ld.congr (by simp)
  refine ⟨?_, ?_, ?_, fun x t _ hx => ?_, fun {σ} g s z hz => ?_⟩
  · obtain ⟨-, rfl⟩ := MvNormal.new_ok.1 h; rfl
  · obtain ⟨-, rfl⟩ := MvNormal.new_ok.1 h; rfl
  · refine ⟨_, mvEntropy_is ld' hv, ?_⟩
    unfold UvNormal.shannonEntropy
    refine Is.congr (r := Real.log (π * Real.exp 1 * 2 * v) / 2) (by fev) ?_
    rw [show π * Real.exp 1 * 2 * v = Real.exp 1 * (2 * π) * v by ring, Real.log_mul (by positivity) hv.ne', Real.log_mul (by positivity) (by positivity),
      Real.log_exp]
    push_cast; ring
  · obtain ⟨z1, -⟩ := dense_diag_mahalanobis (m := fun _ => μ) h (fun _ => ha) hS (fun _ => hv) (x := fun _ => x) (t := fun _ => t) fun _ => hx
    refine ⟨_, mvPdf_is z1 ld' hv, (normal_pdf_is (d := ⟨a, b⟩) ha hb hv hx).congr ?_⟩
    rw [gaussianPDFReal, Real.coe_toNNReal _ hv.le, pow_one, Fin.sum_univ_one, inv_mul_eq_div,
      show -(t - μ) ^ 2 / (2 * v) = -((t - μ) ^ 2 / v) / 2 by field_simp]
  · have hf : b.sqrt.isFinite := (hb.sqrt hv.le).isFinite
    refine ⟨a + b.sqrt * (g.draw s).1, ?_, ⟨√v * z + μ, ?_, ?_⟩, ?_⟩
    · unfold UvNormal.sample; rw [if_pos hf]
    · show (mvMult d.lt (fun i => g.nth s i) 0 + d.mu 0).Is _
      rw [hmu]
      refine ((mvMult_is llt (w := fun _ => z) (fun i => ?_) 0).add ha).congr ?_
      · rw [Subsingleton.elim i 0]; exact hz
      · simp [hL]
    · exact (ha.add ((hb.sqrt hv.le).mul hz)).congr (by ring)
    · unfold UvNormal.sample; rw [if_pos hf]; rfl
end

/-! ### concrete cases -/
section
attribute [local instance] exactFP exactFP_exact exactLapack exactLapack_exact
theorem iso_ex5 : IsoNormal.new (fun i : Fin 3 => fin i) (fin 2) = .ok (IsoNormal.newUnchecked (fun i => fin i) (fin 2)) :=
  IsoNormal.new_ok.2 ⟨fin_lt_fin.2 (by norm_num), rfl⟩
theorem diag_ex5 : DiagNormal.new (fun i : Fin 3 => fin i) (fun _ => fin 2) = .ok (DiagNormal.newUnchecked (fun i => fin i) fun _ => fin 2) :=
  DiagNormal.new_ok.2 ⟨fun _ => fin_lt_fin.2 (by norm_num), rfl⟩
theorem dense_ex5 : MvNormal.new (fun i : Fin 3 => fin i) (fun i j => fin (if i = j then 2 else 0)) =
    .ok (MvNormal.newUnchecked (fun i => fin i) fun i j => fin (if i = j then 2 else 0)) :=
  MvNormal.new_ok.2 ⟨fun i j => fin_le_fin.2 (by split_ifs <;> norm_num), rfl⟩
theorem bv_ex5 : BvNormal.new ![fin 0, fin 1] ![fin 2, fin 3] (fin (1 / 2)) = .ok ⟨![fin 0, fin 1], ![fin 2, fin 3], fin (1 / 2)⟩ :=
  BvNormal.new_ok.2 ⟨fun i => by fin_cases i <;> exact fin_lt_fin.2 (by norm_num), fin_le_fin.2 (by norm_num), fin_le_fin.2 (by norm_num), rfl⟩
example : SameVal (IsoNormal.pdf (IsoNormal.newUnchecked (fun i : Fin 3 => fin i) (fin 2)) fun _ => fin 5)
    (DiagNormal.pdf (DiagNormal.newUnchecked (fun i : Fin 3 => fin i) fun _ => fin 2) fun _ => fin 5) :=
  ((C243_isotropic_diagonal iso_ex5 diag_ex5 (m := fun i => i) (fun _ => Is.fin _) (Is.fin 2)).2.2.2.2.2.1 _ _ fun _ => Is.fin 5).2
example : SameVal (DiagNormal.newUnchecked (fun i : Fin 3 => fin i) fun _ => fin 2).shannonEntropy
    (MvNormal.newUnchecked (fun i : Fin 3 => fin i) fun i j => fin (if i = j then 2 else 0)).shannonEntropy :=
  (C243_diagonal_dense_partial diag_ex5 dense_ex5 (m := fun i => i) (v := fun _ => 2) (fun _ => Is.fin _) (fun _ => Is.fin 2) fun _ _ => Is.fin _).2.2.2.2
example : ∃ p q : ℝ, q < p ∧ ((DiagNormal.newUnchecked (fun i : Fin 3 => fin i) fun _ => fin 2).pdf fun i => fin ((i : ℝ) - 1)).Is p ∧
    ((MvNormal.newUnchecked (fun i : Fin 3 => fin i) fun i j => fin (if i = j then 2 else 0)).pdf fun i => fin ((i : ℝ) - 1)).Is q :=
  C243_diagonal_dense_pdf_violated (by norm_num) diag_ex5 dense_ex5 (m := fun i => i) (v := fun _ => 2) (fun _ => Is.fin _) (fun _ => Is.fin 2) fun _ _ => Is.fin _
example (i : Fin 3) : ¬ SameVal (((DiagNormal.newUnchecked (fun i : Fin 3 => fin i) fun _ => fin 2).sample (scriptRng fun _ => fin 1) 0).1 i)
    (((MvNormal.newUnchecked (fun i : Fin 3 => fin i) fun i j => fin (if i = j then 2 else 0)).sample (scriptRng fun _ => fin 1) 0).1 i) := fun h => by
  rcases (C243_diagonal_dense_sample_violated diag_ex5 dense_ex5 (m := fun i => i) (v := fun _ => 2) (fun _ => Is.fin _) (fun _ => Is.fin 2)
    (fun _ _ => Is.fin _) _ _ (fun _ => 1) (fun i => by rw [script_nth]; exact Is.fin 1) i).1 h with h | h <;> norm_num at h
example : ∃ d e, BvNormal.independent ![fin 0, fin 1] ![fin 2, fin 3] = .ok d ∧ PairedNormal.new ![fin 0, fin 1] ![fin 2, fin 3] = .ok e ∧
    SameVal (d.pdf fun _ => fin 5) (e.pdf fun _ => fin 5) := by
  have hp : ∀ i : Fin 2, 0 < (![fin 2, fin 3] : Fin 2 → F64) i := fun i => by fin_cases i <;> exact fin_lt_fin.2 (by norm_num)
  have h1 : BvNormal.independent ![fin 0, fin 1] ![fin 2, fin 3] = .ok ⟨![fin 0, fin 1], ![fin 2, fin 3], 0⟩ :=
    BvNormal.new_ok.2 ⟨hp, fin_le_fin.2 (by norm_num), fin_le_fin.2 (by norm_num), rfl⟩
  have h2 : PairedNormal.new ![fin 0, fin 1] ![fin 2, fin 3] = .ok ⟨![fin 0, fin 1], ![fin 2, fin 3]⟩ := PairedNormal.new_ok.2 ⟨hp, rfl⟩
  exact ⟨_, _, h1, h2, ((C243_bivariate_paired h1 h2 (m := ![0, 1]) (s := ![2, 3]) (fun i => by fin_cases i <;> exact Is.fin _)
    (fun i => by fin_cases i <;> exact Is.fin _)).2.2.2.2.2.2.1 _ _ fun _ => Is.fin 5).2⟩
example : ∃ e : MvNormal 2, ∃ p q : ℝ, q < p ∧ (BvNormal.shannonEntropy ⟨![fin 0, fin 1], ![fin 2, fin 3], fin (1 / 2)⟩).Is p ∧ e.shannonEntropy.Is q ∧
    SameVal ((BvNormal.sample ⟨![fin 0, fin 1], ![fin 2, fin 3], fin (1 / 2)⟩ (scriptRng fun _ => fin 1) 0).1 1) ((e.sample (scriptRng fun _ => fin 1) 0).1 1) := by
  have hm : ∀ i : Fin 2, ((![fin 0, fin 1] : Fin 2 → F64) i).Is ((![0, 1] : Fin 2 → ℝ) i) := fun i => by fin_cases i <;> exact Is.fin _
  have hS : ∀ i : Fin 2, ((![fin 2, fin 3] : Fin 2 → F64) i).Is ((![2, 3] : Fin 2 → ℝ) i) := fun i => by fin_cases i <;> exact Is.fin _
  have ha : |(1 / 2 : ℝ)| < 1 := by rw [abs_of_pos] <;> norm_num
  obtain ⟨e, he, p, q, h1, h2, h3⟩ := (C243_bivariate_dense_violated bv_ex5 hm hS (Is.fin _) ha).2 (by norm_num)
  exact ⟨e, p, q, h1, h2, h3, ((C243_bivariate_dense_partial bv_ex5 he hm hS (Is.fin _) ha).2.2.2.2 _ _ (fun _ => 1) fun i => by
    rw [script_nth]; exact Is.fin 1).2 1⟩
example : SameOn Set.univ (fun x => (MvNormal.newUnchecked (fun _ : Fin 1 => fin 3) fun _ _ => fin 2).pdf fun _ => x) (UvNormal.pdf ⟨fin 3, fin 2⟩) :=
  (C243_dense_univariate (MvNormal.new_ok.2 ⟨fun _ _ => fin_le_fin.2 (by norm_num), rfl⟩) (UvNormal.new_ok.2 ⟨fin_lt_fin.2 (by norm_num), rfl⟩)
    (Is.fin _) (Is.fin _)).2.2.2.1
end
end Rstat
