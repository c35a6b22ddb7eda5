import Verif.Lemmas.Dist.Discrete
import Verif.Spec.Special
import Mathlib.MeasureTheory.Integral.IntervalIntegral.FundThmCalculus
import Mathlib.Analysis.SpecialFunctions.Gamma.Basic

/-! Binomial tails as incomplete beta integrals; the mode of the binomial law. -/
set_option linter.unusedSectionVars false
namespace Rstat.Spec
open Finset MeasureTheory

theorem bin_tail_deriv (n k : ℕ) (hk : k < n) (t : ℝ) :
    HasDerivAt (fun t : ℝ => ∑ j ∈ range (k + 1), (n.choose j : ℝ) * ((1 - t) ^ j * t ^ (n - j)))
      (n.choose k * ((n : ℝ) - k) * (t ^ (n - k - 1) * (1 - t) ^ k)) t := by
  induction k with
  | zero =>
    simp only [zero_add, range_one, sum_singleton, Nat.choose_zero_right, Nat.sub_zero, pow_zero, one_mul, Nat.cast_one,
      Nat.cast_zero, sub_zero, mul_one]
    refine HasDerivAt.congr_deriv (f := fun t : ℝ => t ^ n) (hasDerivAt_pow n t) ?_
    rfl
  | succ k ih =>
    have h1 := ih (by omega)
    have h2 := (((((hasDerivAt_id t).const_sub 1).pow (k + 1)).mul ((hasDerivAt_id t).pow (n - (k + 1)))).const_mul
      (n.choose (k + 1) : ℝ))
    have h3 := h1.add h2
    have e : (fun t : ℝ => ∑ j ∈ range (k + 1 + 1), (n.choose j : ℝ) * ((1 - t) ^ j * t ^ (n - j))) =
        fun t : ℝ => (∑ j ∈ range (k + 1), (n.choose j : ℝ) * ((1 - t) ^ j * t ^ (n - j))) +
          (n.choose (k + 1) : ℝ) * ((1 - t) ^ (k + 1) * t ^ (n - (k + 1))) := by
      ext t; rw [sum_range_succ]
    rw [e]
    refine HasDerivAt.congr_deriv (f := fun t : ℝ => (∑ j ∈ range (k + 1), (n.choose j : ℝ) * ((1 - t) ^ j * t ^ (n - j))) +
          (n.choose (k + 1) : ℝ) * ((1 - t) ^ (k + 1) * t ^ (n - (k + 1)))) h3 ?_
    · have hc : (n.choose (k + 1) : ℝ) * (k + 1) = n.choose k * (n - k) := by
        have := Nat.choose_succ_right_eq n k
        have h2 : ((n - k : ℕ) : ℝ) = n - k := by push_cast [(by omega : k ≤ n)]; ring
        rw [← h2]; exact_mod_cast this
      have h5 : ((n - (k + 1) : ℕ) : ℝ) = n - (k + 1) := by push_cast [hk.le]; ring
      rw [h5, show n - k - 1 = n - (k + 1) by omega]
      simp only [id, Pi.mul_apply, Pi.pow_apply, Nat.add_sub_cancel]
      push_cast
      linear_combination (-(1 - t) ^ k * t ^ (n - (k + 1))) * hc

/-- the binomial tail as a regularised incomplete beta function -/
theorem bin_cdf_betaI (n k : ℕ) (hk : k < n) {q : ℝ} :
    betaI q ((n : ℝ) - k) ((k : ℝ) + 1) = ∑ j ∈ range (k + 1), binPMF n (1 - q) j := by
  have hi : ∫ t in (0:ℝ)..q, (n.choose k * ((n : ℝ) - k) * (t ^ (n - k - 1) * (1 - t) ^ k)) =
      ∑ j ∈ range (k + 1), binPMF n (1 - q) j := by
    rw [intervalIntegral.integral_eq_sub_of_hasDerivAt (fun t _ => bin_tail_deriv n k hk t)
      (Continuous.intervalIntegrable (by fun_prop) _ _)]
    have z : ∑ j ∈ range (k + 1), (n.choose j : ℝ) * ((1 - (0:ℝ)) ^ j * 0 ^ (n - j)) = 0 := by
      refine sum_eq_zero fun j hj => ?_
      rw [mem_range] at hj
      rw [zero_pow (by omega)]; ring
    rw [z, sub_zero]
    refine sum_congr rfl fun j _ => ?_
    unfold binPMF; rw [sub_sub_cancel]; ring
  rw [intervalIntegral.integral_const_mul] at hi
  have hn : ((n - k - 1 : ℕ) : ℝ) = (n : ℝ) - k - 1 := by
    rw [Nat.sub_sub, Nat.cast_sub (by omega)]; push_cast; ring
  have hB : Beta ((n : ℝ) - k) ((k : ℝ) + 1) = 1 / (n.choose k * ((n : ℝ) - k)) := by
    unfold Beta
    have e1 : Real.Gamma ((n : ℝ) - k) = (n - k - 1).factorial := by
      rw [← Real.Gamma_nat_eq_factorial, hn]; congr 1; ring
    have e2 : Real.Gamma ((n : ℝ) - k + (k + 1)) = n.factorial := by
      rw [← Real.Gamma_nat_eq_factorial]; congr 1; ring
    rw [e1, e2, Real.Gamma_nat_eq_factorial]
    have hf : (n.choose k : ℝ) * k.factorial * (n - k).factorial = n.factorial := by
      exact_mod_cast Nat.choose_mul_factorial_mul_factorial hk.le
    have hf2 : ((n - k).factorial : ℝ) = ((n : ℝ) - k) * (n - k - 1).factorial := by
      rw [← Nat.mul_factorial_pred (by omega : n - k ≠ 0)]; push_cast [hk.le]; ring
    have h1 : (0:ℝ) < (n.choose k : ℝ) := by exact_mod_cast Nat.choose_pos hk.le
    have h2 : (0:ℝ) < (n : ℝ) - k := by
      have : (k : ℝ) < n := by exact_mod_cast hk
      linarith
    rw [← hf, hf2]
    field_simp
  have hI : ∫ t in (0:ℝ)..q, t ^ ((n : ℝ) - k - 1) * (1 - t) ^ ((k : ℝ) + 1 - 1) =
      ∫ t in (0:ℝ)..q, t ^ (n - k - 1) * (1 - t) ^ k := by
    refine intervalIntegral.integral_congr fun t _ => ?_
    show t ^ ((n : ℝ) - k - 1) * (1 - t) ^ ((k : ℝ) + 1 - 1) = t ^ (n - k - 1) * (1 - t) ^ k
    rw [← hn, Real.rpow_natCast, add_sub_cancel_right, Real.rpow_natCast]
  unfold betaI
  rw [hI, hB, ← hi]
  field_simp

/-- the binomial mass function increases exactly up to `(n+1)p` -/
theorem bin_mode_iff {n m : ℕ} {p : ℝ} (h0 : 0 < p) (h1 : p < 1) (hm : m ≤ n) :
    IsModeD (binPMF n p) m ↔ (m : ℝ) ≤ (n + 1) * p ∧ (n + 1) * p ≤ m + 1 := by
  have hq : 0 < 1 - p := by linarith
  have pos : ∀ k, k ≤ n → 0 < binPMF n p k := fun k hk => by
    have : (0:ℝ) < n.choose k := by exact_mod_cast Nat.choose_pos hk
    unfold binPMF; positivity
  have up : ∀ k, k < n → (binPMF n p k ≤ binPMF n p (k + 1) ↔ (k : ℝ) + 1 ≤ (n + 1) * p) := by
    intro k hk
    have hr := bin_ratio (p := p) n k hk
    have hp := pos k hk.le
    have hc : 0 < ((k : ℝ) + 1) * (1 - p) := by positivity
    constructor
    · intro h
      have : ((k : ℝ) + 1) * (1 - p) * binPMF n p k ≤ (n - k) * p * binPMF n p k := by rw [← hr]; gcongr
      have := le_of_mul_le_mul_right this hp
      linarith
    · intro h
      refine le_of_mul_le_mul_left ?_ hc
      rw [hr]
      refine mul_le_mul_of_nonneg_right ?_ hp.le
      linarith
  have dn : ∀ k, k < n → (binPMF n p (k + 1) ≤ binPMF n p k ↔ (n + 1) * p ≤ (k : ℝ) + 1) := by
    intro k hk
    have hr := bin_ratio (p := p) n k hk
    have hp := pos k hk.le
    have hc : 0 < ((k : ℝ) + 1) * (1 - p) := by positivity
    constructor
    · intro h
      have : (n - k) * p * binPMF n p k ≤ ((k : ℝ) + 1) * (1 - p) * binPMF n p k := by rw [← hr]; gcongr
      have := le_of_mul_le_mul_right this hp
      linarith
    · intro h
      refine le_of_mul_le_mul_left ?_ hc
      rw [hr]
      refine mul_le_mul_of_nonneg_right ?_ hp.le
      linarith
  constructor
  · intro h
    constructor
    · rcases m with _ | m
      · simp; positivity
      · have := (up m (by omega)).1 (h m)
        push_cast; exact this
    · rcases hm.lt_or_eq with hlt | rfl
      · exact (dn m hlt).1 (h (m + 1))
      · nlinarith
  · rintro ⟨h2, h3⟩ j
    rcases le_or_gt j m with hj | hj
    · obtain ⟨d, hd⟩ := Nat.exists_eq_add_of_le hj
      clear hj
      induction d generalizing j with
      | zero => rw [hd]; simp
      | succ d ih =>
        have hj1 : (j : ℝ) + 1 ≤ m := by exact_mod_cast (by omega : j + 1 ≤ m)
        exact ((up j (by omega)).2 (by linarith)).trans (ih (j + 1) (by omega))
    · by_cases hjn : n < j
      · rw [binPMF_zero hjn]; exact (pos m hm).le
      · obtain ⟨d, rfl⟩ := Nat.exists_eq_add_of_le hj.le
        clear hj
        induction d with
        | zero => simp
        | succ d ih =>
          have hj1 : (m : ℝ) ≤ ((m + d : ℕ) : ℝ) := by exact_mod_cast (by omega : m ≤ m + d)
          exact ((dn (m + d) (by omega)).2 (by linarith)).trans (ih (by omega))

end Rstat.Spec
