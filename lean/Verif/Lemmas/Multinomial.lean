import Verif.Spec.Multi
import Mathlib.Data.Nat.Choose.Multinomial
import Mathlib.Analysis.Calculus.Deriv.Pow
import Mathlib.Analysis.Calculus.Deriv.Add
import Mathlib.Analysis.Calculus.Deriv.Mul

/-! The multinomial law: total mass and second-order moments, from its generating function. -/
namespace Rstat.Spec
open Finset

/-- first two factorial moments from a binomial-type generating function -/
theorem factorial_moments {α : Type*} (s : Finset α) (w : α → ℝ) (k : α → ℕ) (q : ℝ) (n : ℕ)
    (h : ∀ t : ℝ, ∑ a ∈ s, w a * t ^ k a = (1 + q * (t - 1)) ^ n) :
    ∑ a ∈ s, (k a : ℝ) * w a = n * q ∧ ∑ a ∈ s, (k a : ℝ) ^ 2 * w a = n * q + n * (n - 1) * q ^ 2 := by
  have hd : ∀ t : ℝ, ∑ a ∈ s, w a * (k a * t ^ (k a - 1)) = n * (1 + q * (t - 1)) ^ (n - 1) * q := fun t => by
    have h1 : HasDerivAt (fun t : ℝ => ∑ a ∈ s, w a * t ^ k a) (∑ a ∈ s, w a * (k a * t ^ (k a - 1))) t :=
      HasDerivAt.fun_sum fun a _ => (hasDerivAt_pow (k a) t).const_mul (w a)
    have h2 : HasDerivAt (fun t : ℝ => (1 + q * (t - 1)) ^ n) (n * (1 + q * (t - 1)) ^ (n - 1) * q) t := by
      have := ((((hasDerivAt_id t).sub_const 1).const_mul q).const_add 1).pow n
      refine HasDerivAt.congr_deriv (f := fun t : ℝ => (1 + q * (t - 1)) ^ n) this ?_
      simp
    rw [show (fun t : ℝ => ∑ a ∈ s, w a * t ^ k a) = fun t => (1 + q * (t - 1)) ^ n from funext h] at h1
    exact h1.unique h2
  have hd2 : ∑ a ∈ s, w a * (k a * ((k a - 1 : ℕ) : ℝ)) = n * ((n - 1 : ℕ) : ℝ) * q * q := by
    have h1 : HasDerivAt (fun t : ℝ => ∑ a ∈ s, w a * (k a * t ^ (k a - 1)))
        (∑ a ∈ s, w a * (k a * (((k a - 1 : ℕ) : ℝ) * 1 ^ (k a - 1 - 1)))) 1 :=
      HasDerivAt.fun_sum fun a _ => ((hasDerivAt_pow (k a - 1) 1).const_mul _).const_mul (w a)
    have h2 : HasDerivAt (fun t : ℝ => n * (1 + q * (t - 1)) ^ (n - 1) * q) (n * ((n - 1 : ℕ) : ℝ) * q * q) 1 := by
      have := ((((((hasDerivAt_id (1:ℝ)).sub_const 1).const_mul q).const_add 1).pow (n - 1)).const_mul (n : ℝ)).mul_const q
      refine HasDerivAt.congr_deriv (f := fun t : ℝ => n * (1 + q * (t - 1)) ^ (n - 1) * q) this ?_
      simp only [id, sub_self, mul_zero, add_zero, one_pow, mul_one]
      ring
    rw [show (fun t : ℝ => ∑ a ∈ s, w a * (k a * t ^ (k a - 1))) = fun t => n * (1 + q * (t - 1)) ^ (n - 1) * q from funext hd] at h1
    have := h1.unique h2
    simpa using this
  have cast1 : ∀ m : ℕ, (m : ℝ) * ((m - 1 : ℕ) : ℝ) = m * (m - 1) := fun m => by
    rcases m with _ | m
    · simp
    · push_cast; simp
  have e1 : ∑ a ∈ s, (k a : ℝ) * w a = n * q := by
    have := hd 1
    simp at this
    rw [← this]
    exact sum_congr rfl fun a _ => mul_comm _ _
  refine ⟨e1, ?_⟩
  have : ∑ a ∈ s, (k a : ℝ) ^ 2 * w a = ∑ a ∈ s, w a * (k a * ((k a - 1 : ℕ) : ℝ)) + ∑ a ∈ s, (k a : ℝ) * w a := by
    rw [← sum_add_distrib]
    refine sum_congr rfl fun a _ => ?_
    rw [cast1]; ring
  rw [this, hd2, e1, cast1]; ring

section
variable {N n : ℕ} {p : Fin N → ℝ}

theorem multinomial_pgf (t : Fin N → ℝ) :
    ∑ x ∈ piAntidiag univ n, multinomialPMF n p x * ∏ i, t i ^ x i = (∑ i, p i * t i) ^ n := by
  rw [sum_pow_eq_sum_piAntidiag]
  refine sum_congr rfl fun x hx => ?_
  have hs : ∑ i, x i = n := (mem_piAntidiag.1 hx).1
  unfold multinomialPMF
  rw [if_pos hs]
  have hm := Nat.multinomial_spec univ x
  rw [hs] at hm
  have hne : (∏ i, ((x i).factorial : ℝ)) ≠ 0 := prod_ne_zero_iff.2 fun i _ => by exact_mod_cast (Nat.factorial_ne_zero _)
  have hm' : (∏ i, ((x i).factorial : ℝ)) * Nat.multinomial univ x = n.factorial := by exact_mod_cast hm
  rw [← hm', mul_div_cancel_left₀ _ hne]
  simp only [mul_pow, prod_mul_distrib]
  ring

theorem multinomial_zero {x : Fin N → ℕ} (hx : x ∉ piAntidiag univ n) : multinomialPMF n p x = 0 := by
  unfold multinomialPMF
  rw [if_neg]
  intro h; exact hx (mem_piAntidiag.2 ⟨h, fun i _ => mem_univ i⟩)

theorem multinomial_hasSum (g : (Fin N → ℕ) → ℝ) :
    HasSum (fun x => g x * multinomialPMF n p x) (∑ x ∈ piAntidiag univ n, g x * multinomialPMF n p x) :=
  hasSum_sum_of_ne_finset_zero fun x hx => by rw [multinomial_zero hx, mul_zero]

theorem multinomial_nonneg (hp : ∀ i, 0 ≤ p i) (x : Fin N → ℕ) : 0 ≤ multinomialPMF n p x := by
  unfold multinomialPMF
  split_ifs
  · exact mul_nonneg (by positivity) (prod_nonneg fun i _ => pow_nonneg (hp i) _)
  · exact le_rfl

theorem multinomial_isPMF (hp : ∀ i, 0 ≤ p i) (h1 : ∑ i, p i = 1) : IsPMF (multinomialPMF n p) := by
  refine ⟨multinomial_nonneg hp, ?_⟩
  have h := multinomial_hasSum (n := n) (p := p) fun _ => 1
  have e := multinomial_pgf (n := n) (p := p) fun _ => 1
  simp only [one_pow, prod_const_one, mul_one, h1] at e
  simp only [one_mul] at h
  rwa [e] at h

/-- counts in a set of categories -/
theorem multinomial_set (h1 : ∑ i, p i = 1) (A : Finset (Fin N)) :
    ∑ x ∈ piAntidiag univ n, (∑ i ∈ A, x i : ℕ) * multinomialPMF n p x = n * ∑ i ∈ A, p i ∧
    ∑ x ∈ piAntidiag univ n, ((∑ i ∈ A, x i : ℕ) : ℝ) ^ 2 * multinomialPMF n p x =
      n * (∑ i ∈ A, p i) + n * (n - 1) * (∑ i ∈ A, p i) ^ 2 := by
  refine factorial_moments (piAntidiag univ n) (multinomialPMF n p) (fun x => ∑ i ∈ A, x i) (∑ i ∈ A, p i) n fun t => ?_
  have e := multinomial_pgf (n := n) (p := p) fun i => if i ∈ A then t else 1
  have e1 : ∑ i, p i * (if i ∈ A then t else 1) = 1 + (∑ i ∈ A, p i) * (t - 1) := by
    have : ∀ i, p i * (if i ∈ A then t else 1) = p i + (if i ∈ A then p i else 0) * (t - 1) := fun i => by
      split_ifs <;> ring
    simp only [this, sum_add_distrib, ← sum_mul, h1]
    rw [sum_ite_mem, univ_inter]
  rw [← e1, ← e]
  refine sum_congr rfl fun x _ => ?_
  congr 1
  have : ∀ i, (if i ∈ A then t else (1:ℝ)) ^ x i = if i ∈ A then t ^ x i else 1 := fun i => by split_ifs <;> simp
  simp only [this]
  rw [prod_ite_mem, univ_inter, prod_pow_eq_pow_sum]

theorem multinomial_mean (h1 : ∑ i, p i = 1) (i : Fin N) :
    HasSum (fun x => (x i : ℝ) * multinomialPMF n p x) (n * p i) := by
  have h := multinomial_hasSum (n := n) (p := p) fun x => (x i : ℝ)
  have := (multinomial_set (n := n) h1 {i}).1
  simp only [sum_singleton] at this
  rwa [this] at h

/-- `E (X_i - n p_i)(X_j - n p_j)` -/
theorem multinomial_cov (h1 : ∑ i, p i = 1) (i j : Fin N) :
    HasSum (fun x => ((x i : ℝ) - n * p i) * ((x j : ℝ) - n * p j) * multinomialPMF n p x)
      (if i = j then n * p i * (1 - p i) else -n * p i * p j) := by
  have h := multinomial_hasSum (n := n) (p := p) fun x => ((x i : ℝ) - n * p i) * ((x j : ℝ) - n * p j)
  have m := fun i => (multinomial_set (n := n) h1 {i}).1
  have v := fun i => (multinomial_set (n := n) h1 {i}).2
  have t1 : ∑ x ∈ piAntidiag univ n, multinomialPMF n p x = 1 := by
    have e := multinomial_pgf (n := n) (p := p) fun _ => 1
    simpa only [one_pow, prod_const_one, mul_one, h1] using e
  simp only [sum_singleton] at m v
  have cross : ∑ x ∈ piAntidiag univ n, (x i : ℝ) * x j * multinomialPMF n p x =
      if i = j then n * p i + n * (n - 1) * p i ^ 2 else n * (n - 1) * (p i * p j) := by
    by_cases hij : i = j
    · subst hij
      rw [if_pos rfl, ← v i]
      exact sum_congr rfl fun x _ => by ring
    · rw [if_neg hij]
      have hs := (multinomial_set (n := n) h1 {i, j}).2
      simp only [sum_pair hij, Nat.cast_add] at hs
      have e : ∑ x ∈ piAntidiag univ n, ((x i : ℝ) + x j) ^ 2 * multinomialPMF n p x =
          ∑ x ∈ piAntidiag univ n, (x i : ℝ) ^ 2 * multinomialPMF n p x + ∑ x ∈ piAntidiag univ n, (x j : ℝ) ^ 2 * multinomialPMF n p x
          + 2 * ∑ x ∈ piAntidiag univ n, (x i : ℝ) * x j * multinomialPMF n p x := by
        rw [mul_sum, ← sum_add_distrib, ← sum_add_distrib]
        exact sum_congr rfl fun x _ => by ring
      rw [e, v i, v j] at hs
      linarith
  have e : ∑ x ∈ piAntidiag univ n, ((x i : ℝ) - n * p i) * ((x j : ℝ) - n * p j) * multinomialPMF n p x =
      ∑ x ∈ piAntidiag univ n, (x i : ℝ) * x j * multinomialPMF n p x - n * p j * ∑ x ∈ piAntidiag univ n, (x i : ℝ) * multinomialPMF n p x
      - n * p i * ∑ x ∈ piAntidiag univ n, (x j : ℝ) * multinomialPMF n p x
      + n * p i * (n * p j) * ∑ x ∈ piAntidiag univ n, multinomialPMF n p x := by
    rw [mul_sum, mul_sum, mul_sum, ← sum_sub_distrib, ← sum_sub_distrib, ← sum_add_distrib]
    exact sum_congr rfl fun x _ => by ring
  rw [e, cross, m i, m j, t1] at h
  convert h using 1
  by_cases hij : i = j
  · subst hij; simp only [if_true]; ring
  · simp only [if_neg hij]; ring
end
end Rstat.Spec
