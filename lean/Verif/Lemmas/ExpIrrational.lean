import Mathlib.NumberTheory.Transcendental.Lindemann.AnalyticalPart
import Mathlib.NumberTheory.Real.Irrational
import Mathlib.Topology.Algebra.Order.Floor
import Mathlib.Analysis.SpecialFunctions.Exp
import Mathlib.Data.Nat.Prime.Infinite

/-! The exponential of a non-zero rational number is irrational (from the analytical part of Lindemann's theorem in Mathlib). -/
namespace Rstat
open Polynomial Nat

theorem exp_int_irrational {a : ℤ} (ha : a ≠ 0) : Irrational (Real.exp a) := by
  rintro ⟨q, hq⟩
  obtain ⟨c, hc⟩ := LindemannWeierstrass.exp_polynomial_approx (X - C a) (by simpa using ha)
  have qp : 0 < q := by
    have := Real.exp_pos (a : ℝ)
    rw [← hq] at this; exact_mod_cast this
  have qn : 0 < q.num := Rat.num_pos.2 qp
  have lim := ((FloorSemiring.tendsto_pow_div_factorial_atTop |c|)).const_mul ((q.den : ℝ) * (|c|))
  rw [mul_zero] at lim
  have ev := lim.eventually (gt_mem_nhds (show (0:ℝ) < 1 by norm_num))
  obtain ⟨N, hN⟩ := Filter.eventually_atTop.1 ev
  obtain ⟨p, hp1, hp⟩ := Nat.exists_infinite_primes (N + a.natAbs + q.num.natAbs + 2)
  obtain ⟨n, hn, gp, -, hg⟩ := hc p (by simp; omega) hp
  have hr := hg (r := (a : ℂ)) (by
    rw [mem_aroots]
    refine ⟨X_sub_C_ne_zero a, ?_⟩
    simp)
  -- the integer
  set G : ℤ := gp.eval a with hG
  have eG : aeval (a : ℂ) gp = (G : ℂ) := by
    have := aeval_algebraMap_apply ℂ a gp
    simpa [hG] using this
  rw [eG] at hr
  have hexp : Complex.exp (a : ℂ) = ((q : ℝ) : ℂ) := by
    rw [hq, Complex.ofReal_exp]; simp
  rw [hexp] at hr
  have e1 : (n • (((q : ℝ)) : ℂ) - p • (G : ℂ)) = (((n : ℝ) * q - p * G : ℝ) : ℂ) := by
    rw [zsmul_eq_mul, nsmul_eq_mul]; push_cast; ring
  rw [e1, Complex.norm_real, Real.norm_eq_abs] at hr
  have den0 : (0:ℝ) < q.den := by exact_mod_cast q.den_pos
  have hz : ((q.den : ℝ)) * ((n : ℝ) * q - p * G) = ((n * q.num - p * G * q.den : ℤ) : ℝ) := by
    have : (q : ℝ) = q.num / q.den := by exact_mod_cast (Rat.num_div_den q).symm
    rw [this]; push_cast; field_simp
  have nz : n * q.num - p * G * q.den ≠ 0 := by
    intro h0
    have hd : (p : ℤ) ∣ n * q.num := ⟨G * q.den, by linarith⟩
    rcases (Nat.prime_iff_prime_int.1 hp).dvd_or_dvd hd with h | h
    · exact hn h
    · have := Int.le_of_dvd qn h
      omega
  have ge1 : (1:ℝ) ≤ |((n * q.num - p * G * q.den : ℤ) : ℝ)| := by
    exact_mod_cast Int.one_le_abs nz
  have b1 : |((n * q.num - p * G * q.den : ℤ) : ℝ)| ≤ q.den * (|c| ^ p / (p - 1)!) := by
    rw [← hz, abs_mul, abs_of_pos den0]
    refine mul_le_mul_of_nonneg_left (hr.trans ?_) den0.le
    refine div_le_div_of_nonneg_right ?_ (by positivity)
    calc c ^ p ≤ |c ^ p| := le_abs_self _
      _ = |c| ^ p := abs_pow c p
  have b2 := hN (p - 1) (by omega)
  have hp' : p = (p - 1) + 1 := by omega
  have b3 : (q.den : ℝ) * (|c| ^ p / (p - 1)!) = q.den * |c| * (|c| ^ (p - 1) / (p - 1)!) := by
    conv_lhs => rw [hp', pow_succ]
    simp only [Nat.add_sub_cancel]
    ring
  rw [b3] at b1
  linarith

theorem exp_rat_irrational {q : ℚ} (hq : q ≠ 0) : Irrational (Real.exp q) := by
  have h : Irrational (Real.exp q ^ q.den) := by
    rw [← Real.exp_nat_mul]
    have e : (q.den : ℝ) * (q : ℝ) = (q.num : ℝ) := by exact_mod_cast Rat.den_mul_eq_num q
    rw [e]
    exact exp_int_irrational (Rat.num_ne_zero.2 hq)
  exact h.of_pow _

/-- the exponential of a non-zero rational is not rational -/
theorem exp_rat_ne_rat {q r : ℚ} (hq : q ≠ 0) : Real.exp q ≠ r := fun h => exp_rat_irrational hq ⟨r, h.symm⟩
end Rstat
