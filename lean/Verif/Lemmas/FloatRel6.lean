import Verif.Props.FloatMoments

/-! Relative forward error through `powf`, `ln` and `exp` (used for medians, modes and entropies). -/
set_option linter.unusedSectionVars false
namespace Rstat
open F64 Spec Consts Real

section
variable [FP] [FP.Lawful] [FP.Libm] [FP.Accurate] {a e : F64} {s p : ℝ} {j k m n : ℕ}

/-- the logarithm turns a relative error into an absolute one -/
theorem log_pert_eta {x s η : ℝ} (s0 : 0 < s) (η0 : 0 ≤ η) (η1 : η ≤ 1 / 2) (h : |x - s| ≤ η * s) : 0 < x ∧ |Real.log x - Real.log s| ≤ 2 * η := by
  obtain ⟨h1, h2⟩ := abs_le.1 h
  have x0 : 0 < x := by nlinarith
  refine ⟨x0, ?_⟩
  rw [← Real.log_div x0.ne' s0.ne']
  have r1 : x / s - 1 ≤ η := by rw [div_sub_one s0.ne', div_le_iff₀ s0]; linarith
  have r0 : 1 - η ≤ x / s := by rw [le_div_iff₀ s0]; linarith
  have q0 : 0 < x / s := by positivity
  rw [abs_le]
  constructor
  · have := Real.one_sub_inv_le_log_of_pos q0
    have : (x / s)⁻¹ ≤ 1 + 2 * η := by
      rw [inv_le_comm₀ q0 (by positivity), inv_le_comm₀ (by positivity) q0, inv_le_comm₀ q0 (by positivity)]
      refine le_trans ?_ r0
      rw [inv_le_iff_one_le_mul₀ (by positivity)]
      nlinarith
    linarith
  · have := Real.log_le_sub_one_of_pos q0
    linarith

theorem exp_size {L : ℕ} {x : ℝ} (h : |x| ≤ L) : 1 / 2 ^ (2 * L) ≤ Real.exp x ∧ Real.exp x ≤ 2 ^ (2 * L) := by
  have e4 : Real.exp 1 ≤ 4 := by have := Real.exp_one_lt_d9; linarith
  have key : Real.exp (L:ℝ) ≤ 2 ^ (2 * L) := by
    rw [show (L:ℝ) = L * 1 by ring, Real.exp_nat_mul, pow_mul]
    exact pow_le_pow_left₀ (Real.exp_pos _).le (e4.trans (by norm_num)) _
  obtain ⟨h1, h2⟩ := abs_le.1 h
  refine ⟨?_, (Real.exp_le_exp.2 h2).trans key⟩
  calc (1:ℝ) / 2 ^ (2 * L) ≤ 1 / Real.exp L := one_div_le_one_div_of_le (Real.exp_pos _) key
    _ = Real.exp (-L) := by rw [Real.exp_neg, one_div]
    _ ≤ _ := Real.exp_le_exp.2 h1

namespace Rel

/-- the finite value behind a `Rel`, as a multiplicative perturbation -/
theorem unit_small {n : ℕ} (hn : n ≤ 1000000) : (n:ℝ) / 2 ^ 52 ≤ 1 / 2 := by
  have hn' : (n:ℝ) ≤ 1000000 := by exact_mod_cast hn
  rw [div_le_div_iff₀ (by positivity) (by positivity)]; nlinarith

/-- exponential of `d` times a number, `d` a small error -/
theorem exp_shift {x y : ℝ} {N : ℕ} (hN : N ≤ 400000) (h : |y - x| ≤ N / 2 ^ 52) {f : ℝ} (hf : |f - Real.exp y| ≤ Real.exp y / 2 ^ 52) :
    |f - Real.exp x| ≤ ((2 * N + 2 : ℕ) : ℝ) / 2 ^ 52 * Real.exp x := by
  have hN' : (N:ℝ) ≤ 400000 := by exact_mod_cast hN
  have c1 : (N:ℝ) / 2 ^ 52 ≤ 1 / 4 := by rw [div_le_div_iff₀ (by positivity) (by positivity)]; nlinarith
  have x0 := Real.exp_pos x
  have e1 : |Real.exp (y - x) - 1| ≤ 2 * |y - x| := Real.abs_exp_sub_one_le (by linarith)
  have e2 : |Real.exp y - Real.exp x| ≤ 2 * (N / 2 ^ 52) * Real.exp x := by
    have : Real.exp y - Real.exp x = (Real.exp (y - x) - 1) * Real.exp x := by rw [Real.exp_sub]; field_simp
    rw [this, abs_mul, abs_of_pos x0]
    gcongr
    linarith
  have e3 : Real.exp y ≤ 2 * Real.exp x := by
    have := (abs_le.1 e2).2
    have : 2 * ((N:ℝ) / 2 ^ 52) * Real.exp x ≤ 1 * Real.exp x := by gcongr; linarith
    linarith
  have t := abs_add_le (f - Real.exp y) (Real.exp y - Real.exp x)
  rw [sub_add_sub_cancel] at t
  have e4 : Real.exp y / 2 ^ 52 ≤ 2 * Real.exp x / 2 ^ 52 := by gcongr
  have : ((2 * N + 2 : ℕ) : ℝ) / 2 ^ 52 * Real.exp x = 2 * (N / 2 ^ 52) * Real.exp x + 2 * Real.exp x / 2 ^ 52 := by push_cast; ring
  rw [this]
  linarith

/-- powers: `L` bounds the logarithm of the result, `P` the exponent -/
theorem powf (L P : ℕ) (ha : Rel a s j m) (he : Rel e p k n) (s0 : 0 < s) (hL : |p * Real.log s| ≤ L) (hP : |p| ≤ P) (hL2 : 2 * L ≤ 900)
    (hm : m ≤ 1000000) (hn : n ≤ 1000000) (hN : L * n + 4 * P * m ≤ 400000) :
    Rel (a.powf e) (s ^ p) (2 * L) (2 * (L * n + 4 * P * m) + 3) := by
  obtain ⟨a1, a2, x, hx, hxe⟩ := ha
  have p0 := he.pos_abs
  obtain ⟨e1, e2, y, hy, hye⟩ := he
  rw [abs_of_pos s0] at hxe
  obtain ⟨x0, hl⟩ := log_pert_eta s0 (by positivity) (unit_small hm) hxe
  have cn := unit_small hn
  have y0 : y ≠ 0 := by
    rintro rfl
    rw [zero_sub, abs_neg] at hye
    nlinarith
  have y2 : |y| ≤ 2 * P := by
    have := abs_add_le (y - p) p
    rw [sub_add_cancel] at this
    nlinarith
  have ep : s ^ p = Real.exp (p * Real.log s) := by rw [Real.rpow_def_of_pos s0, mul_comm]
  have ex : x ^ y = Real.exp (y * Real.log x) := by rw [Real.rpow_def_of_pos x0, mul_comm]
  obtain ⟨z1, z2⟩ := exp_size hL
  rw [← ep] at z1 z2
  have sp : 0 < s ^ p := Real.rpow_pos_of_pos s0 p
  have dist : |y * Real.log x - p * Real.log s| ≤ ((L * n + 4 * P * m : ℕ) : ℝ) / 2 ^ 52 := by
    have d1 : |(y - p) * Real.log s| ≤ n / 2 ^ 52 * L := by
      rw [abs_mul]
      rw [abs_mul] at hL
      calc |y - p| * |Real.log s| ≤ (n / 2 ^ 52 * |p|) * |Real.log s| := by gcongr
        _ = n / 2 ^ 52 * (|p| * |Real.log s|) := by ring
        _ ≤ _ := by gcongr
    have d2 : |y * (Real.log x - Real.log s)| ≤ (2 * P) * (2 * (m / 2 ^ 52)) := by
      rw [abs_mul]; gcongr
    have t := abs_add_le ((y - p) * Real.log s) (y * (Real.log x - Real.log s))
    rw [show (y - p) * Real.log s + y * (Real.log x - Real.log s) = y * Real.log x - p * Real.log s by ring] at t
    have : ((L * n + 4 * P * m : ℕ) : ℝ) / 2 ^ 52 = n / 2 ^ 52 * L + (2 * P) * (2 * (m / 2 ^ 52)) := by push_cast; ring
    rw [this]; linarith
  have acc := FP.Accurate.pow_acc x y x0
  rw [ex] at acc
  have fin := exp_shift hN dist acc
  rw [← ep] at fin
  obtain ⟨R, hR, hRe⟩ := Rel.round (n := 2 * (L * n + 4 * P * m) + 2) (y := FP.fpow x y) (t := s ^ p) (k := 2 * L)
    (by rwa [abs_of_pos sp]) (by rwa [abs_of_pos sp]) hL2 (by omega) (by
      rw [abs_of_pos sp]
      refine fin.trans ?_
      gcongr
      linarith)
  refine ⟨by rwa [abs_of_pos sp], by rwa [abs_of_pos sp], R, ?_, hRe⟩
  rw [powf_pos_ext hx hy x0 y0]
  exact hR

/-- exponentials: `L` bounds the exponent -/
theorem exp (L : ℕ) (ha : Rel a s k n) (hL : |s| ≤ L) (hL2 : 2 * L ≤ 900) (hN : L * n ≤ 400000) : Rel a.exp (Real.exp s) (2 * L) (2 * (L * n) + 3) := by
  obtain ⟨a1, a2, x, hx, hxe⟩ := ha
  obtain ⟨z1, z2⟩ := exp_size hL
  have sp := Real.exp_pos s
  have dist : |x - s| ≤ ((L * n : ℕ) : ℝ) / 2 ^ 52 := by
    refine hxe.trans ?_
    have : ((L * n : ℕ) : ℝ) / 2 ^ 52 = n / 2 ^ 52 * L := by push_cast; ring
    rw [this]; gcongr
  have fin := exp_shift hN dist (FP.Accurate.exp_acc x)
  obtain ⟨R, hR, hRe⟩ := Rel.round (n := 2 * (L * n) + 2) (y := FP.fexp x) (t := Real.exp s) (k := 2 * L)
    (by rwa [abs_of_pos sp]) (by rwa [abs_of_pos sp]) hL2 (by omega) (by
      rw [abs_of_pos sp]
      refine fin.trans ?_
      gcongr
      linarith)
  refine ⟨by rwa [abs_of_pos sp], by rwa [abs_of_pos sp], R, ?_, hRe⟩
  rw [exp_fin hx]
  exact hR

/-- logarithms away from one: `C` bounds the inverse of the logarithm -/
theorem ln (C K : ℕ) (ha : Rel a s k n) (s0 : 0 < s) (hC : 1 ≤ C * |Real.log s|) (h1 : 1 / 2 ^ K ≤ |Real.log s|) (h2 : |Real.log s| ≤ 2 ^ K) (hK : K ≤ 900)
    (hn : n ≤ 1000000) (hN : 2 * C * n ≤ 800000) : Rel a.ln (Real.log s) K (2 * C * n + 3) := by
  obtain ⟨a1, a2, x, hx, hxe⟩ := ha
  rw [abs_of_pos s0] at hxe
  obtain ⟨x0, hl⟩ := log_pert_eta s0 (by positivity) (unit_small hn) hxe
  have l0 : 0 ≤ |Real.log s| := abs_nonneg _
  have dist : |Real.log x - Real.log s| ≤ ((2 * C * n : ℕ) : ℝ) / 2 ^ 52 * |Real.log s| := by
    refine hl.trans ?_
    have : ((2 * C * n : ℕ) : ℝ) / 2 ^ 52 * |Real.log s| = 2 * (n / 2 ^ 52) * (C * |Real.log s|) := by push_cast; ring
    rw [this]
    exact le_mul_of_one_le_right (by positivity) hC
  have hN' : ((2 * C * n : ℕ) : ℝ) ≤ 800000 := by exact_mod_cast hN
  have lx : |Real.log x| ≤ 2 * |Real.log s| := by
    have t := abs_add_le (Real.log x - Real.log s) (Real.log s)
    rw [sub_add_cancel] at t
    have : ((2 * C * n : ℕ) : ℝ) / 2 ^ 52 ≤ 1 := by rw [div_le_one (by positivity)]; refine hN'.trans (by norm_num)
    nlinarith
  have acc := FP.Accurate.ln_acc x x0
  have t := abs_add_le (FP.fln x - Real.log x) (Real.log x - Real.log s)
  rw [sub_add_sub_cancel] at t
  obtain ⟨R, hR, hRe⟩ := Rel.round (n := 2 * C * n + 2) (y := FP.fln x) (t := Real.log s) (k := K) h1 h2 hK (by omega) (by
      refine t.trans ?_
      have e : (((2 * C * n + 2 : ℕ) : ℝ) + 1 / 4) / 2 ^ 52 * |Real.log s| = ((2 * C * n : ℕ) : ℝ) / 2 ^ 52 * |Real.log s| + 2 * |Real.log s| / 2 ^ 52
        + 1 / 4 / 2 ^ 52 * |Real.log s| := by push_cast; ring
      rw [e]
      have : |Real.log x| / 2 ^ 52 ≤ 2 * |Real.log s| / 2 ^ 52 := by gcongr
      have : 0 ≤ 1 / 4 / 2 ^ 52 * |Real.log s| := by positivity
      linarith)
  refine ⟨h1, h2, R, ?_, hRe⟩
  have e : a.ln = F64.round (FP.fln x) := by
    rw [hx.eq_fin x0.ne']
    unfold F64.ln F64.logWith
    dsimp only
    rw [if_neg (not_lt.2 x0.le), if_neg x0.ne']
  rw [e]
  exact hR

theorem ln_two : Rel (2 : F64).ln (Real.log 2) 1 3 := by
  have h1 := Real.log_two_gt_d9
  have h2 := Real.log_two_lt_d9
  have p : 0 < Real.log 2 := by linarith
  exact (Rel.num 2 (by norm_num)).ln 2 1 (by norm_num) (by rw [abs_of_pos p]; push_cast; linarith) (by rw [abs_of_pos p]; norm_num; linarith)
    (by rw [abs_of_pos p]; norm_num; linarith) (by norm_num) (by norm_num) (by norm_num)

theorem log_log_two : -(1 / 2) ≤ Real.log (Real.log 2) ∧ Real.log (Real.log 2) ≤ -(1 / 4) := by
  have h1 := Real.log_two_gt_d9
  have h2 := Real.log_two_lt_d9
  have p : 0 < Real.log 2 := by linarith
  constructor
  · have := Real.one_sub_inv_le_log_of_pos p
    have : (Real.log 2)⁻¹ ≤ 3 / 2 := by rw [inv_le_comm₀ p (by norm_num)]; linarith
    linarith
  · have := Real.log_le_sub_one_of_pos p; linarith

theorem ln_ln_two : Rel (2 : F64).ln.ln (Real.log (Real.log 2)) 2 27 := by
  obtain ⟨h1, h2⟩ := log_log_two
  have p : 0 < Real.log 2 := Real.log_pos (by norm_num)
  have n : |Real.log (Real.log 2)| = -Real.log (Real.log 2) := abs_of_neg (by linarith)
  exact ln_two.ln 4 2 p (by rw [n]; push_cast; linarith) (by rw [n]; norm_num; linarith)
    (by rw [n]; norm_num; linarith) (by norm_num) (by norm_num) (by norm_num)

end Rel
end
end Rstat
