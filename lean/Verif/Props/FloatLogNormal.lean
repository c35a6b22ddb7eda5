import Verif.Props.FloatTail
import Verif.Props.MvLogNormal

/-! C276: the moments of the multivariate log-normal law in floating point (diagonal covariance). -/
set_option linter.unusedSectionVars false
namespace Rstat
open F64 Spec MeasureTheory ProbabilityTheory Matrix

section
variable [FP] [FP.Lawful] [FP.Libm] [FP.Accurate]

/-- the exponential of a moderate number known to an absolute error, as a relative error -/
theorem exp_close_rel {l : F64} {t : ℝ} (h : AbsClose l t (1 / 2 ^ 46)) (h1 : -32 ≤ t) (h2 : t ≤ 64) : RelClose l.exp (Real.exp t) ((256 : ℕ) / 2 ^ 52) := by
  obtain ⟨y, hy, he⟩ := exp_of_close h (by norm_num) (by linarith)
  refine ⟨y, hy, he.trans ?_⟩
  rw [abs_of_pos (Real.exp_pos t)]
  have e : 1 / 2 ^ 47 ≤ Real.exp t := by
    have l2 := Real.log_two_gt_d9
    rw [← Real.exp_log (by positivity : (0:ℝ) < 1 / 2 ^ 47), Real.exp_le_exp, one_div, Real.log_inv, Real.log_pow]
    push_cast; linarith
  norm_num at e ⊢
  linarith

/-- `exp t` is between `2^-93` and `2^93` -/
theorem exp_size_64 {t : ℝ} (h1 : -32 ≤ t) (h2 : t ≤ 64) : 1 / 2 ^ 93 ≤ Real.exp t ∧ Real.exp t ≤ 2 ^ 93 := by
  have l2 := Real.log_two_gt_d9
  constructor
  · rw [← Real.exp_log (by positivity : (0:ℝ) < 1 / 2 ^ 93), Real.exp_le_exp, one_div, Real.log_inv, Real.log_pow]
    push_cast; linarith
  · rw [← Real.exp_log (by positivity : (0:ℝ) < 2 ^ 93), Real.exp_le_exp, Real.log_pow]
    push_cast; linarith

/-- `exp(m + v/2)` -/
theorem lnmean_close {a b : F64} {m v : ℝ} (ha : a.Is m) (hb : b.Is v) (hm : |m| ≤ 16) (v0 : 0 ≤ v) (v1 : v ≤ 32) :
    RelClose (a + b / 2).exp (Real.exp (m + v / 2)) (1 / 2 ^ 44) := by
  obtain ⟨m1, m2⟩ := abs_le.1 hm
  have h2 : Within (b / 2) (v / 2) (17 / 2 ^ 53) :=
    Within.div_exact 16 hb (Is.num 2) two_ne_zero (by rw [abs_of_nonneg (by positivity)]; linarith) (by norm_num) (by norm_num)
  have h := Within.add (ρ := 1 / 2 ^ 46) 32 (Within.exact ha) h2 (abs_le.2 ⟨by linarith, by linarith⟩) (by norm_num) (by norm_num)
  have := exp_close_rel h (by linarith) (by linarith)
  norm_num at this ⊢
  exact this

/-- `exp(2m + v)·(exp v - 1)` -/
theorem lnvar_close {a b : F64} {m v : ℝ} (ha : a.Is m) (hb : b.Is v) (hm : |m| ≤ 16) (v0 : 1 / 16 ≤ v) (v1 : v ≤ 32) :
    RelClose ((2 * a + b).exp * (b.exp - 1)) (Real.exp (2 * m + v) * (Real.exp v - 1)) (1 / 2 ^ 43) := by
  obtain ⟨m1, m2⟩ := abs_le.1 hm
  have h2 : Within (2 * a) (2 * m) (33 / 2 ^ 53) :=
    Within.mul 2 16 (Within.exact (Is.num 2)) (Within.exact ha) (by norm_num) hm (by norm_num) (by norm_num)
  have h := Within.add (ρ := 1 / 2 ^ 46) 64 h2 (Within.exact hb) (abs_le.2 ⟨by linarith, by linarith⟩) (by norm_num) (by norm_num)
  have t1 : -32 ≤ 2 * m + v := by linarith
  have t2 : 2 * m + v ≤ 64 := by linarith
  obtain ⟨s1, s2⟩ := exp_size_64 t1 t2
  have A := rel_of_close (exp_close_rel h t1 t2) (Real.exp_pos _) s1 s2
  have rv : Rel b v 60 0 := Rel.exact hb (by rw [abs_of_pos (by linarith)]; norm_num; linarith) (by rw [abs_of_pos (by linarith)]; norm_num; linarith)
  have B := rv.exp 32 (by rw [abs_of_pos (by linarith)]; exact_mod_cast v1) (by norm_num) (by norm_num)
  have e1 := Real.add_one_le_exp v
  have e0 : 0 < Real.exp v - 1 := by linarith
  have C := Rel.sub_amp 33 (k := 64) B (Rel.one.mono (k' := 2 * 32) (n' := 2 * (32 * 0) + 3) (by norm_num) (by norm_num))
    (by rw [abs_of_pos e0]; norm_num; linarith) (by
      rw [abs_of_pos e0]
      have := B.2.1
      rw [abs_of_pos (Real.exp_pos v)] at this
      norm_num at this ⊢
      linarith) (by rw [abs_of_pos e0, abs_one, abs_of_pos (Real.exp_pos v)]; push_cast; linarith) (by norm_num) (by norm_num)
  have D := close_of_rel (A.mul C (by norm_num) (by norm_num))
  obtain ⟨y, hy, he⟩ := D
  exact ⟨y, hy, he.trans (mul_le_mul_of_nonneg_right (by norm_num) (abs_nonneg _))⟩

variable {n : ℕ} {mu S : Fin n → F64} {m v : Fin n → ℝ} {d : DiagNormal n}

/-- C276 (part): the mean of the multivariate log-normal law to a relative `2^-44`, and its variance to a relative `2^-43` when the variance of the
logarithm is not small (see `C276_variance_violated`) -/
theorem C276_diagonal_partial (h : DiagNormal.new mu S = .ok d) (hm : ∀ i, (mu i).Is (m i)) (hS : ∀ i, (S i).Is (v i)) (i : Fin n)
    (h1 : |m i| ≤ 16) (h2 : v i ≤ 32) :
    (∃ e, ∫ y, y i ∂(expLaw (multivariateGaussian (WithLp.toLp 2 m) (diagonal v))) = e ∧ RelClose (MvLogNormal.mean d.mu d.variance i) e (1 / 2 ^ 44)) ∧
    (1 / 16 ≤ v i → ∃ w, HasCovM (expLaw (multivariateGaussian (WithLp.toLp 2 m) (diagonal v))) (fun y => y i) (fun y => y i) w ∧
      RelClose (MvLogNormal.variance d.mu d.variance i) w (1 / 2 ^ 43)) := by
  obtain ⟨hp, rfl⟩ := DiagNormal.new_ok.1 h
  have hv : ∀ i, 0 < v i := fun i => pos_of_lt (hp i) (hS i)
  obtain ⟨k1, k2⟩ := expGauss_moments m (PosDef.diagonal hv)
  have k1 := (k1 i).2
  have k2 := k2 i i
  rw [diagonal_apply_eq] at k1 k2
  refine ⟨⟨_, k1, lnmean_close (hm i) (hS i) h1 (hv i).le h2⟩, fun h3 => ⟨_, k2, ?_⟩⟩
  have := lnvar_close (hm i) (hS i) h1 h3 h2
  rw [show m i + m i + (v i + v i) / 2 = 2 * m i + v i by ring]
  exact this

end

section
open B64
attribute [local instance] binary64 binary64_lawful B64.libm B64.specialFns B64.accurate

/-- C276 in binary64: when the variance of the logarithm is at most `2^-56`, `variance()` is exactly zero in that coordinate, although the law is not
constant: `exp(v) - 1` cancels, where `exp_m1(v)` would not -/
theorem C276_variance_violated {n : ℕ} {mu S : Fin n → F64} {m v : Fin n → ℝ} {d : DiagNormal n} (h : DiagNormal.new mu S = .ok d)
    (hm : ∀ i, (mu i).Is (m i)) (hS : ∀ i, (S i).Is (v i)) (i : Fin n) (h1 : |m i| ≤ 16) (h2 : v i ≤ 1 / 2 ^ 56) :
    (MvLogNormal.variance d.mu d.variance i).Is 0 ∧
    ∃ w, HasCovM (expLaw (multivariateGaussian (WithLp.toLp 2 m) (diagonal v))) (fun y => y i) (fun y => y i) w ∧ 0 < w ∧
      ¬ RelClose (MvLogNormal.variance d.mu d.variance i) w (1 / 2) := by
  obtain ⟨hp, rfl⟩ := DiagNormal.new_ok.1 h
  have hv : ∀ i, 0 < v i := fun i => pos_of_lt (hp i) (hS i)
  have k2 := (expGauss_moments m (PosDef.diagonal hv)).2 i i
  rw [diagonal_apply_eq] at k2
  have e1 : Real.exp (v i) - 1 ≤ 1 / 2 ^ 54 := by
    have := Real.abs_exp_sub_one_le (x := v i) (by rw [abs_of_pos (hv i)]; exact h2.trans (by norm_num))
    rw [abs_of_pos (hv i)] at this
    have := (abs_le.1 this).2
    norm_num at this h2 ⊢
    linarith
  have e0 : 0 < Real.exp (v i) - 1 := by rw [sub_pos, Real.one_lt_exp_iff]; exact hv i
  have e : (S i).exp = fin 1 := by
    rw [exp_fin (hS i), show FP.fexp (v i) = Real.exp (v i) from rfl]
    refine round_val ?_ one1024 one_ne_zero
    have := rnd_one_add e0.le e1
    rwa [add_sub_cancel] at this
  obtain ⟨m1, m2⟩ := abs_le.1 h1
  have v1 : v i ≤ 32 := h2.trans (by norm_num)
  have hh2 : Within (2 * mu i) (2 * m i) (33 / 2 ^ 53) :=
    Within.mul 2 16 (Within.exact (Is.num 2)) (Within.exact (hm i)) (by norm_num) h1 (by norm_num) (by norm_num)
  have hh := Within.add (ρ := 1 / 2 ^ 46) 64 hh2 (Within.exact (hS i)) (abs_le.2 ⟨by linarith [hv i], by linarith⟩) (by norm_num) (by norm_num)
  obtain ⟨E, hE, -⟩ := exp_close_rel hh (by linarith [hv i]) (by linarith)
  have z : (MvLogNormal.variance mu S i).Is 0 := by
    unfold MvLogNormal.variance
    rw [e]
    exact mul_zero_is (show (fin 1 - 1 : F64).Is 0 from Or.inl (sub_self_fin one_ne_zero)) hE
  have w0 : 0 < Real.exp (m i + m i + (v i + v i) / 2) * (Real.exp (v i) - 1) := mul_pos (Real.exp_pos _) e0
  exact ⟨z, _, k2, w0, not_close_zero z w0⟩

/-! ### the hypotheses are met -/
example : ∃ d, DiagNormal.new (n := 2) (fun _ => fin 0) (fun _ => fin (1 / 2 ^ 60)) = .ok d ∧ (MvLogNormal.variance d.mu d.variance 1).Is 0 := by
  obtain ⟨d, hd⟩ : ∃ d, DiagNormal.new (n := 2) (fun _ => fin 0) (fun _ => fin (1 / 2 ^ 60)) = .ok d :=
    ⟨_, DiagNormal.new_ok.2 ⟨fun _ => lt_of_pos (by positivity) (.fin _), rfl⟩⟩
  exact ⟨d, hd, (C276_variance_violated (m := fun _ => 0) (v := fun _ => 1 / 2 ^ 60) hd (fun _ => .fin _) (fun _ => .fin _) 1 (by norm_num) (by norm_num)).1⟩
example : ∃ d, DiagNormal.new (n := 2) (fun _ => fin 0) (fun _ => fin 1) = .ok d ∧
    ∃ e, RelClose (MvLogNormal.mean d.mu d.variance 1) e (1 / 2 ^ 44) := by
  obtain ⟨d, hd⟩ : ∃ d, DiagNormal.new (n := 2) (fun _ => fin 0) (fun _ => fin 1) = .ok d :=
    ⟨_, DiagNormal.new_ok.2 ⟨fun _ => lt_of_pos (by norm_num) (.fin _), rfl⟩⟩
  obtain ⟨⟨e, -, he⟩, -⟩ := C276_diagonal_partial (m := fun _ => 0) (v := fun _ => 1) hd (fun _ => .fin _) (fun _ => .fin _) 1 (by norm_num) (by norm_num)
  exact ⟨d, hd, e, he⟩

end
end Rstat
