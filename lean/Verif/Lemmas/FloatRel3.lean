import Verif.Lemmas.FloatRel2

/-! Errors relative to a scale, for densities: multiplication and division by a scale between `2^-500` and `2^500`. -/
set_option linter.unusedSectionVars false
namespace Rstat
open F64

/-- mean value theorem with a relative perturbation `η` and an absolute one `τ` of the argument -/
theorem mvt_eta {g g' : ℝ → ℝ} {z Z C D η τ : ℝ} (hg : ∀ x, HasDerivAt g (g' x) x) (η0 : 0 ≤ η) (η1 : η ≤ 1 / 2) (τ0 : 0 ≤ τ)
    (h : |Z - z| ≤ η * |z| + τ) (hC : ∀ x ∈ Set.uIcc z Z, |x| * |g' x| ≤ C) (hD : ∀ x ∈ Set.uIcc z Z, |g' x| ≤ D) :
    |g Z - g z| ≤ 2 * η * C + 2 * τ * D := by
  have hD0 : 0 ≤ D := (abs_nonneg _).trans (hD z Set.left_mem_uIcc)
  have hC0 : 0 ≤ C := le_trans (by positivity) (hC z Set.left_mem_uIcc)
  rcases eq_or_ne Z z with rfl | hne
  · rw [sub_self, abs_zero]; positivity
  have hδ : 0 < |Z - z| := abs_pos.2 (sub_ne_zero.2 hne)
  have key : ∀ x ∈ Set.uIcc z Z, ‖g' x‖ ≤ (2 * η * C + 2 * τ * D) / |Z - z| := by
    intro x hx
    rw [le_div_iff₀ hδ, Real.norm_eq_abs]
    have hxz : |x - z| ≤ |Z - z| := Set.abs_sub_left_of_mem_uIcc hx
    have hz : |z| ≤ |x| + |x - z| := by
      have := abs_add_le x (z - x)
      rw [abs_sub_comm z x] at this
      rwa [add_sub_cancel] at this
    have z0 := abs_nonneg z
    have hz2 : |z| ≤ 2 * |x| + 2 * τ := by nlinarith
    have h3 : |Z - z| ≤ 2 * η * |x| + 2 * τ := by nlinarith
    calc |g' x| * |Z - z| ≤ |g' x| * (2 * η * |x| + 2 * τ) := by gcongr
      _ = 2 * η * (|x| * |g' x|) + 2 * τ * |g' x| := by ring
      _ ≤ _ := by have := hC x hx; have := hD x hx; gcongr
  have := Convex.norm_image_sub_le_of_norm_hasDerivWithin_le (f := g) (f' := g') (s := Set.uIcc z Z) (x := z) (y := Z)
    (fun x _ => (hg x).hasDerivWithinAt) key (convex_uIcc z Z) Set.left_mem_uIcc Set.right_mem_uIcc
  rw [Real.norm_eq_abs, Real.norm_eq_abs, div_mul_cancel₀ _ hδ.ne'] at this
  exact this

section
variable [FP] [FP.Lawful]

/-- rounding below `2^1020` -/
theorem round_near {y : ℝ} (h : |y| ≤ 2 ^ 1020) : ∃ R, (F64.round y).Is R ∧ |R - y| ≤ |y| / 2 ^ 53 + 1 / 2 ^ 1075 := by
  refine ⟨FP.rnd y, F64.round_is fun hh => ?_, FP.Lawful.rnd_err y⟩
  have h1 := huge_big hh
  have p : (2:ℝ) ^ 1022 = 4 * 2 ^ 1020 := by rw [show (1022:ℕ) = 2 + 1020 by norm_num, pow_add]; norm_num
  have p0 : (0:ℝ) < 2 ^ 1020 := by positivity
  rw [p] at h1
  clear p
  generalize (2:ℝ) ^ 1020 = M at *
  linarith only [h, h1, p0]

/-- the underflow error is negligible against every scale -/
theorem tiny_scale {k : ℝ} (h : 1 / 2 ^ 900 ≤ k) : (1:ℝ) / 2 ^ 1075 ≤ k / 2 ^ 120 := by
  have e : (1:ℝ) / 2 ^ 1075 ≤ 1 / 2 ^ 900 / 2 ^ 120 := by
    rw [div_div, ← pow_add]
    exact one_div_le_one_div_of_le (by positivity) (pow_le_pow_right₀ (by norm_num) (by norm_num))
  exact e.trans (by gcongr)

theorem scale_2 {k : ℝ} (h : k ≤ 2 ^ 900) : 2 * k ≤ 2 ^ 1020 := by
  have p : (2:ℝ) ^ 901 = 2 * 2 ^ 900 := by rw [pow_succ, mul_comm]
  have p2 : (2:ℝ) ^ 901 ≤ 2 ^ 1020 := pow_le_pow_right₀ (by norm_num) (by norm_num)
  rw [p] at p2
  refine le_trans ?_ p2
  gcongr

/-- division of a value of size 1 by a scale -/
theorem Within.div_scale {a b : F64} {t s ε : ℝ} (ha : Within a t ε) (ht : |t| ≤ 1) (hε : ε ≤ 1) (hb : b.Is s) (s0 : 1 / 2 ^ 900 ≤ s)
    (s1 : s ≤ 2 ^ 900) : Within (a / b) (t / s) ((ε + 1 / 2 ^ 51) / s) := by
  obtain ⟨y, hy, hye⟩ := ha
  have sp : 0 < s := lt_of_lt_of_le (by positivity) s0
  have hs : 1 / 2 ^ 900 ≤ 1 / s := one_div_le_one_div_of_le sp s1
  have hs2 : 1 / s ≤ 2 ^ 900 := by rw [div_le_iff₀ sp]; rw [div_le_iff₀ (by positivity)] at s0; linarith
  have y2 : |y| ≤ 2 := by
    have := abs_add_le (y - t) t
    rw [sub_add_cancel] at this
    linarith
  have q2 : |y / s| ≤ 2 * (1 / s) := by rw [abs_div, abs_of_pos sp, div_eq_mul_one_div]; gcongr
  obtain ⟨R, hR, hRe⟩ := round_near (y := y / s) (by
    refine q2.trans (scale_2 hs2))
  refine ⟨R, hR.of_ext (div_fin_ext hy hb sp.ne').symm, ?_⟩
  have ht2 := tiny_scale hs
  have e1 : |y / s - t / s| ≤ ε * (1 / s) := by
    rw [← sub_div, abs_div, abs_of_pos sp, div_eq_mul_one_div]; gcongr
  have e2 := abs_sub_le R (y / s) (t / s)
  have e3 : |y / s| / 2 ^ 53 ≤ 2 * (1 / s) / 2 ^ 53 := by gcongr
  have i0 : 0 < 1 / s := by positivity
  rw [div_eq_mul_one_div (ε + 1 / 2 ^ 51) s]
  generalize (1:ℝ) / 2 ^ 1075 = T at *
  generalize 1 / s = k at *
  have : (ε + 1 / 2 ^ 51) * k = ε * k + k / 2 ^ 51 := by ring
  rw [this]
  have : k / 2 ^ 120 ≤ k / 2 ^ 52 := by gcongr <;> norm_num
  have : 2 * k / 2 ^ 53 + k / 2 ^ 52 = k / 2 ^ 51 := by ring
  linarith

/-- multiplication of a value of size 1 by a scale -/
theorem Within.mul_scale {a b : F64} {t s ε : ℝ} (ha : Within a t ε) (ht : |t| ≤ 1) (hε : ε ≤ 1) (hb : b.Is s) (s0 : 1 / 2 ^ 900 ≤ s)
    (s1 : s ≤ 2 ^ 900) : Within (b * a) (s * t) (s * (ε + 1 / 2 ^ 51)) := by
  obtain ⟨y, hy, hye⟩ := ha
  have sp : 0 < s := lt_of_lt_of_le (by positivity) s0
  have y2 : |y| ≤ 2 := by
    have := abs_add_le (y - t) t
    rw [sub_add_cancel] at this
    linarith
  have q2 : |s * y| ≤ s * 2 := by rw [abs_mul, abs_of_pos sp]; gcongr
  obtain ⟨R, hR, hRe⟩ := round_near (y := s * y) (by
    refine q2.trans ?_
    rw [mul_comm]; exact scale_2 s1)
  refine ⟨R, hR.of_ext (mul_fin_ext hb hy).symm, ?_⟩
  have ht2 := tiny_scale s0
  have e1 : |s * y - s * t| ≤ s * ε := by rw [← mul_sub, abs_mul, abs_of_pos sp]; gcongr
  have e2 := abs_sub_le R (s * y) (s * t)
  have e3 : |s * y| / 2 ^ 53 ≤ s * 2 / 2 ^ 53 := by gcongr
  generalize (1:ℝ) / 2 ^ 1075 = T at *
  have : s * (ε + 1 / 2 ^ 51) = s * ε + s / 2 ^ 51 := by ring
  rw [this]
  have : s / 2 ^ 120 ≤ s / 2 ^ 52 := by gcongr <;> norm_num
  have : s * 2 / 2 ^ 53 + s / 2 ^ 52 = s / 2 ^ 51 := by ring
  linarith

/-- division by an inexact scale -/
theorem Within.div_near {a b : F64} {t N s ε η : ℝ} (ha : Within a t ε) (ht : |t| ≤ 1) (hε : ε ≤ 1) (hb : b.Is N) (η0 : 0 ≤ η) (η1 : η ≤ 1 / 2)
    (hN : |N - s| ≤ η * s) (s0 : 1 / 2 ^ 899 ≤ s) (s1 : s ≤ 2 ^ 899) : Within (a / b) (t / s) ((2 * ε + 1 / 2 ^ 50 + 2 * η) / s) := by
  have sp : 0 < s := lt_of_lt_of_le (by positivity) s0
  obtain ⟨h1, h2⟩ := abs_le.1 hN
  have n1 : s / 2 ≤ N := by nlinarith
  have n2 : N ≤ 2 * s := by nlinarith
  have np : 0 < N := by linarith
  have hd := ha.div_scale ht hε hb (by
    have : (1:ℝ) / 2 ^ 900 = 1 / 2 ^ 899 / 2 := by rw [div_div, ← pow_succ]
    rw [this]; linarith only [n1, s0]) (by
    have : (2:ℝ) ^ 900 = 2 * 2 ^ 899 := by rw [pow_succ]; ring
    rw [this]; linarith only [n2, s1])
  have e0 : 0 ≤ ε := by obtain ⟨y, -, h⟩ := ha; exact (abs_nonneg _).trans h
  refine hd.shift ?_
  have i1 : 1 / N ≤ 2 * (1 / s) := by
    rw [mul_one_div, div_le_div_iff₀ np sp]; linarith
  have e1 : |t / N - t / s| ≤ 2 * η * (1 / s) := by
    rw [show t / N - t / s = t * ((s - N) * (1 / N) * (1 / s)) by field_simp, abs_mul, abs_mul, abs_mul, abs_of_pos (show 0 < 1 / N by positivity),
      abs_of_pos (show 0 < 1 / s by positivity), abs_sub_comm]
    calc |t| * (|N - s| * (1 / N) * (1 / s)) ≤ 1 * ((η * s) * (2 * (1 / s)) * (1 / s)) := by gcongr
      _ = 2 * η * (1 / s) := by field_simp
  have e2 : (ε + 1 / 2 ^ 51) / N ≤ (2 * ε + 1 / 2 ^ 50) * (1 / s) := by
    rw [div_eq_mul_one_div]
    calc (ε + 1 / 2 ^ 51) * (1 / N) ≤ (ε + 1 / 2 ^ 51) * (2 * (1 / s)) := by gcongr
      _ = _ := by ring
  rw [div_eq_mul_one_div (2 * ε + 1 / 2 ^ 50 + 2 * η)]
  linarith
end
end Rstat
