import Verif.Lemmas.BetaLog
import Verif.Lemmas.Reflection
import Mathlib.Analysis.Calculus.SmoothSeries
import Mathlib.Analysis.PSeries

/-! The series of the digamma function and of its first two derivatives near 1, and the third derivative of Gamma at 1. -/
namespace Rstat.Spec
open MeasureTheory Filter Topology Set Real

theorem digamma_shift {x : ℝ} (hx : 0 < x) (N : ℕ) :
    digamma (x + N) = digamma x + ∑ i ∈ Finset.range N, 1 / (x + i) := by
  induction N with
  | zero => simp
  | succ N ih =>
    have := digamma_add_one (a := x + N) (by positivity)
    rw [Finset.sum_range_succ, ← add_assoc, ← ih, ← this]
    push_cast; rw [add_assoc]

theorem digamma_le {a b : ℝ} (ha : 0 < a) (hb : a ≤ b) : digamma a ≤ digamma b := by
  rcases hb.eq_or_lt with rfl | h
  · exact le_rfl
  · exact (digamma_lt ha h).le

/-- the tail of the series vanishes -/
theorem digamma_tail {x : ℝ} (hx : 0 < x) (hx2 : x ≤ 2) :
    Tendsto (fun N : ℕ => digamma (x + N) - digamma (1 + N)) atTop (𝓝 0) := by
  have hlim : Tendsto (fun N : ℕ => 1 / (N : ℝ)) atTop (𝓝 0) := tendsto_one_div_atTop_nhds_zero_nat
  refine squeeze_zero_norm' ?_ hlim
  filter_upwards [eventually_gt_atTop 0] with N hN
  have hN' : (0:ℝ) < N := by exact_mod_cast hN
  have e1 := digamma_add_one (a := N) hN'
  have e2 := digamma_add_one (a := N + 1) (by positivity)
  have u := digamma_le (a := x + N) (b := N + 1 + 1) (by positivity) (by linarith)
  have l := digamma_le (a := N) (b := x + N) hN' (by linarith)
  have hle : 1 / ((N : ℝ) + 1) ≤ 1 / N := by gcongr; linarith
  rw [Real.norm_eq_abs, abs_le, add_comm 1 (N : ℝ)]
  constructor <;> linarith

theorem digamma_hasSum {x : ℝ} (hx : 0 < x) (hx2 : x ≤ 2) :
    Tendsto (fun N : ℕ => ∑ i ∈ Finset.range N, (1 / (1 + (i:ℝ)) - 1 / (x + i))) atTop (𝓝 (digamma x - digamma 1)) := by
  have h := (digamma_tail hx hx2).const_sub (digamma x - digamma 1)
  rw [sub_zero] at h
  refine h.congr fun N => ?_
  rw [digamma_shift hx, digamma_shift one_pos, Finset.sum_sub_distrib]
  ring

theorem inv_sq_summable : Summable fun n : ℕ => 4 * (1 / ((n : ℝ) + 1) ^ 2) :=
  Summable.mul_left 4 ((summable_nat_add_iff (f := fun n : ℕ => 1 / (n : ℝ) ^ 2) 1).2 (Real.summable_one_div_nat_pow.2 one_lt_two) |>.congr fun n => by push_cast; rfl)

theorem inv_sq_le {x : ℝ} (hx : 1 / 2 < x) (n : ℕ) : 1 / (x + n) ^ 2 ≤ 4 * (1 / ((n : ℝ) + 1) ^ 2) := by
  have hn : (0:ℝ) ≤ n := Nat.cast_nonneg n
  rw [mul_one_div, div_le_div_iff₀ (by positivity) (by positivity)]
  nlinarith

theorem digamma_series_summable {x : ℝ} (hx : 1 / 2 < x) :
    Summable fun n : ℕ => 1 / (1 + (n:ℝ)) - 1 / (x + n) := by
  refine Summable.of_norm_bounded (g := fun n : ℕ => |x - 1| * (4 * (1 / ((n : ℝ) + 1) ^ 2))) (inv_sq_summable.mul_left _) fun n => ?_
  have hn : (0:ℝ) ≤ n := Nat.cast_nonneg n
  have hx0 : 0 < x + n := by linarith
  rw [Real.norm_eq_abs, show 1 / (1 + (n:ℝ)) - 1 / (x + n) = (x - 1) * (1 / ((1 + n) * (x + n))) by field_simp; ring, abs_mul]
  refine mul_le_mul_of_nonneg_left ?_ (abs_nonneg _)
  rw [abs_of_pos (by positivity), mul_one_div, div_le_div_iff₀ (by positivity) (by positivity)]
  nlinarith

theorem digamma_series {x : ℝ} (hx : 1 / 2 < x) (hx2 : x ≤ 2) :
    digamma x = digamma 1 + ∑' n : ℕ, (1 / (1 + (n:ℝ)) - 1 / (x + n)) := by
  have h := tendsto_nhds_unique (digamma_series_summable hx).hasSum.tendsto_sum_nat (digamma_hasSum (by linarith) hx2)
  rw [h]; ring

/-- `ψ'(x) = Σ 1/(x+n)²` -/
theorem digamma_deriv {x : ℝ} (hx : x ∈ Ioo (1 / 2 : ℝ) 2) : HasDerivAt digamma (∑' n : ℕ, 1 / (x + n) ^ 2) x := by
  have h := hasDerivAt_tsum_of_isPreconnected (u := fun n : ℕ => 4 * (1 / ((n : ℝ) + 1) ^ 2)) (t := Ioo (1 / 2 : ℝ) 2)
    (g := fun n x => 1 / (1 + (n:ℝ)) - 1 / (x + n)) (g' := fun n x => 1 / (x + n) ^ 2) (y₀ := 1) (y := x) inv_sq_summable isOpen_Ioo isPreconnected_Ioo
    (fun n y hy => by
      have hy0 : y + n ≠ 0 := by have := hy.1; have : (0:ℝ) ≤ n := Nat.cast_nonneg n; linarith
      have := (((hasDerivAt_id y).add_const (n:ℝ)).inv hy0).const_sub (1 / (1 + (n:ℝ)))
      simp only [id] at this
      refine (this.congr_deriv (by rw [neg_div, neg_neg])).congr_of_eventuallyEq (Eventually.of_forall fun z => ?_)
      show 1 / (1 + (n:ℝ)) - 1 / (z + n) = 1 / (1 + (n:ℝ)) - (z + n)⁻¹
      rw [one_div (z + (n:ℝ))])
    (fun n y hy => by rw [Real.norm_of_nonneg (by positivity)]; exact inv_sq_le hy.1 n)
    ⟨by norm_num, by norm_num⟩ (digamma_series_summable (by norm_num)) hx
  refine (h.const_add (digamma 1)).congr_of_eventuallyEq ?_
  filter_upwards [isOpen_Ioo.mem_nhds hx] with y hy
  exact digamma_series hy.1 hy.2.le

/-- `ψ''(x) = -2 Σ 1/(x+n)³` -/
theorem trigamma_deriv {x : ℝ} (hx : x ∈ Ioo (1 / 2 : ℝ) 2) :
    HasDerivAt (fun y : ℝ => ∑' n : ℕ, 1 / (y + n) ^ 2) (∑' n : ℕ, -(2 * (1 / (x + n) ^ 3))) x := by
  refine hasDerivAt_tsum_of_isPreconnected (u := fun n : ℕ => 4 * (4 * (1 / ((n : ℝ) + 1) ^ 2))) (t := Ioo (1 / 2 : ℝ) 2)
    (g := fun n (x : ℝ) => 1 / (x + n) ^ 2) (g' := fun n (x : ℝ) => -(2 * (1 / (x + n) ^ 3))) (y₀ := 1) (inv_sq_summable.mul_left 4) isOpen_Ioo isPreconnected_Ioo
    (fun n y hy => ?_) (fun n y hy => ?_) ⟨by norm_num, by norm_num⟩ ?_ hx
  · have hy0 : y + n ≠ 0 := by have := hy.1; have : (0:ℝ) ≤ n := Nat.cast_nonneg n; linarith
    have := (((hasDerivAt_id y).add_const (n:ℝ)).pow 2).inv (pow_ne_zero 2 hy0)
    simp only [id] at this
    refine (this.congr_deriv ?_).congr_of_eventuallyEq (Eventually.of_forall fun z => ?_)
    · simp; field_simp
    · simp
  · have h1 := hy.1
    have hn : (0:ℝ) ≤ n := Nat.cast_nonneg n
    have hp : 0 < y + n := by linarith
    rw [norm_neg, Real.norm_of_nonneg (by positivity)]
    refine le_trans ?_ (mul_le_mul_of_nonneg_left (inv_sq_le h1 n) (by norm_num))
    rw [mul_one_div, mul_one_div, div_le_div_iff₀ (by positivity) (by positivity)]
    have : 2 * (y + n) ^ 2 ≤ 4 * (y + n) ^ 2 * (y + n) := by nlinarith [sq_nonneg (y + n)]
    nlinarith
  · refine (inv_sq_summable.mul_left (1 / 4)).congr fun n => ?_
    rw [add_comm]; ring

theorem digamma_deriv2_one : HasDerivAt (deriv digamma) (-(2 * ∑' n : ℕ, 1 / ((n : ℝ) + 1) ^ 3)) 1 := by
  have h1 : (1:ℝ) ∈ Ioo (1 / 2 : ℝ) 2 := ⟨by norm_num, by norm_num⟩
  have h := trigamma_deriv h1
  have e : (∑' n : ℕ, -(2 * (1 / ((1:ℝ) + n) ^ 3))) = -(2 * ∑' n : ℕ, 1 / ((n : ℝ) + 1) ^ 3) := by
    rw [tsum_neg, tsum_mul_left]
    congr 2
    exact tsum_congr fun n => by rw [add_comm]
  rw [e] at h
  refine h.congr_of_eventuallyEq ?_
  filter_upwards [isOpen_Ioo.mem_nhds h1] with y hy
  exact (digamma_deriv hy).deriv

/-- the third central moment of `-ln T`, `T` unit exponential -/
theorem gamma_deriv3_one :
    -iteratedDeriv 3 Real.Gamma 1 + 3 * digamma 1 * iteratedDeriv 2 Real.Gamma 1 - 2 * digamma 1 ^ 3 =
      2 * ∑' n : ℕ, 1 / ((n : ℝ) + 1) ^ 3 := by
  have h1 : (1:ℝ) ∈ Ioo (1 / 2 : ℝ) 2 := ⟨by norm_num, by norm_num⟩
  have n1 := isOpen_Ioo.mem_nhds h1
  have d1 : ∀ y ∈ Ioo (1 / 2 : ℝ) 2, deriv Real.Gamma y = Real.Gamma y * digamma y := fun y hy =>
    (gamma_hasDerivAt (by linarith [hy.1])).deriv
  have d2 : ∀ y ∈ Ioo (1 / 2 : ℝ) 2, HasDerivAt (deriv Real.Gamma) (Real.Gamma y * (digamma y ^ 2 + deriv digamma y)) y := fun y hy => by
    have h := (gamma_hasDerivAt (a := y) (by linarith [hy.1])).mul (digamma_deriv hy)
    have e : deriv Real.Gamma =ᶠ[𝓝 y] Real.Gamma * digamma := by
      filter_upwards [isOpen_Ioo.mem_nhds hy] with z hz
      exact d1 z hz
    refine (h.congr_of_eventuallyEq e).congr_deriv ?_
    rw [(digamma_deriv hy).deriv]; ring
  have e2 : iteratedDeriv 2 Real.Gamma = deriv (deriv Real.Gamma) := by
    rw [iteratedDeriv_succ, iteratedDeriv_one]
  have v2 : iteratedDeriv 2 Real.Gamma 1 = digamma 1 ^ 2 + deriv digamma 1 := by
    rw [e2, (d2 1 h1).deriv, Real.Gamma_one, one_mul]
  have v3 : iteratedDeriv 3 Real.Gamma 1 = digamma 1 * (digamma 1 ^ 2 + deriv digamma 1) +
      (2 * digamma 1 * deriv digamma 1 + -(2 * ∑' n : ℕ, 1 / ((n : ℝ) + 1) ^ 3)) := by
    have e : iteratedDeriv 2 Real.Gamma =ᶠ[𝓝 1] fun y => Real.Gamma y * (digamma y ^ 2 + deriv digamma y) := by
      rw [e2]
      filter_upwards [n1] with z hz
      exact (d2 z hz).deriv
    rw [iteratedDeriv_succ, e.deriv_eq]
    have h := (gamma_hasDerivAt one_pos).mul (((digamma_deriv h1).pow 2).add digamma_deriv2_one)
    have h' := h.deriv
    rw [← (digamma_deriv h1).deriv] at h'
    refine h'.trans ?_
    simp [Real.Gamma_one]
  rw [v3, v2]; ring

end Rstat.Spec
