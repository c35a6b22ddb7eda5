import Verif.Lemmas.Dist.Triangular

/-! The triangular distribution function is non-increasing in each of its three corners and Lipschitz in its argument, so that moving the
corners by at most `e` changes it by at most `2 e / (b - a)`. -/
namespace Rstat
open Spec Set MeasureTheory

section
variable {a b c : ℝ}

theorem tri_anti_c {c' : ℝ} (hac : a ≤ c) (h : c ≤ c') (hcb : c' ≤ b) (x : ℝ) : triangularCDF a b c' x ≤ triangularCDF a b c x := by
  unfold triangularCDF
  by_cases h1 : x ≤ a
  · rw [if_pos h1, if_pos h1]
  rw [if_neg h1, if_neg h1]
  push Not at h1
  have ab : 0 < b - a ∨ b ≤ x := by by_cases hb : b ≤ x; exact Or.inr hb; exact Or.inl (by linarith)
  rcases ab with ab | hb
  swap
  · by_cases h2 : x ≤ c'
    · have e2 : x = b := le_antisymm (h2.trans hcb) hb
      have e3 : c' = b := by linarith
      have hn : 0 < b - a := by linarith
      rw [if_pos h2, e2, e3]
      have : (b - a) ^ 2 / ((b - a) * (b - a)) = 1 := by rw [← sq]; exact div_self (by positivity)
      rw [this]
      split_ifs with h3 h4
      · have : c = b := by linarith
        rw [this, ‹(b - a) ^ 2 / ((b - a) * (b - a)) = 1›]
      · exact absurd h4 (lt_irrefl _)
      · exact le_rfl
    · rw [if_neg h2, if_neg (not_le.2 (lt_of_le_of_lt h (not_le.1 h2))), if_neg (not_lt.2 hb), if_neg (not_lt.2 hb)]
  by_cases h2 : x ≤ c
  · rw [if_pos h2, if_pos (h2.trans h)]
    have : 0 < c - a := by linarith
    gcongr
  rw [if_neg h2]; push Not at h2
  by_cases h3 : x ≤ c'
  · rw [if_pos h3]
    have hp : 0 < c' - a := by linarith
    have k1 : (x - a) ^ 2 / ((b - a) * (c' - a)) ≤ (x - a) / (b - a) := by
      rw [div_le_div_iff₀ (by positivity) ab]
      nlinarith [mul_nonneg (mul_nonneg (sub_nonneg.2 h1.le) ab.le) (sub_nonneg.2 h3)]
    by_cases h4 : x < b
    · rw [if_pos h4]
      have hq : 0 < b - c := by linarith
      have k2 : (b - x) ^ 2 / ((b - a) * (b - c)) ≤ (b - x) / (b - a) := by
        rw [div_le_div_iff₀ (by positivity) ab]
        nlinarith [mul_nonneg (mul_nonneg (sub_nonneg.2 h4.le) ab.le) (sub_nonneg.2 h2.le)]
      have k3 : (x - a) / (b - a) + (b - x) / (b - a) = 1 := by rw [← add_div, div_eq_one_iff_eq ab.ne']; ring
      linarith
    · rw [if_neg h4]
      refine k1.trans ?_
      rw [div_le_one ab]; linarith
  rw [if_neg h3]; push Not at h3
  by_cases h4 : x < b
  · rw [if_pos h4, if_pos h4]
    have hq : 0 < b - c' := by linarith
    have : (b - x) ^ 2 / ((b - a) * (b - c)) ≤ (b - x) ^ 2 / ((b - a) * (b - c')) := by gcongr
    linarith
  · rw [if_neg h4, if_neg h4]

theorem tri_anti_b {b' : ℝ} (hac : a ≤ c) (hcb : c ≤ b) (h : b ≤ b') (x : ℝ) : triangularCDF a b' c x ≤ triangularCDF a b c x := by
  unfold triangularCDF
  by_cases h1 : x ≤ a
  · rw [if_pos h1, if_pos h1]
  rw [if_neg h1, if_neg h1]
  push Not at h1
  by_cases h2 : x ≤ c
  · rw [if_pos h2, if_pos h2]
    have : 0 < c - a := by linarith
    have : 0 < b - a := by linarith
    gcongr
  rw [if_neg h2, if_neg h2]; push Not at h2
  by_cases h3 : x < b
  · rw [if_pos h3, if_pos (h3.trans_le h)]
    have p1 : 0 < b - a := by linarith
    have p2 : 0 < b - c := by linarith
    have p3 : 0 < b' - a := by linarith
    have p4 : 0 < b' - c := by linarith
    have k1 : (b - x) / (b - a) ≤ (b' - x) / (b' - a) := by
      rw [div_le_div_iff₀ p1 p3]; nlinarith [mul_nonneg (sub_nonneg.2 h) (sub_nonneg.2 h1.le)]
    have k2 : (b - x) / (b - c) ≤ (b' - x) / (b' - c) := by
      rw [div_le_div_iff₀ p2 p4]; nlinarith [mul_nonneg (sub_nonneg.2 h) (sub_nonneg.2 h2.le)]
    have k3 : (b - x) / (b - a) * ((b - x) / (b - c)) ≤ (b' - x) / (b' - a) * ((b' - x) / (b' - c)) :=
      mul_le_mul k1 k2 (div_nonneg (by linarith) p2.le) (div_nonneg (by linarith) p3.le)
    rw [div_mul_div_comm, div_mul_div_comm, ← sq, ← sq] at k3
    linarith
  · rw [if_neg h3]
    split_ifs with h4
    · have p3 : 0 ≤ b' - a := by linarith
      have p4 : 0 ≤ b' - c := by linarith
      have : 0 ≤ (b' - x) ^ 2 / ((b' - a) * (b' - c)) := by positivity
      linarith
    · exact le_rfl

theorem tri_anti_a {a' : ℝ} (h : a ≤ a') (hac : a' ≤ c) (hcb : c ≤ b) (x : ℝ) : triangularCDF a' b c x ≤ triangularCDF a b c x := by
  unfold triangularCDF
  by_cases h1 : x ≤ a'
  · rw [if_pos h1]
    split_ifs with h2 h3 h4
    · exact le_rfl
    · have p1 : 0 ≤ b - a := by linarith
      have p2 : 0 ≤ c - a := by linarith
      positivity
    · push Not at h3; linarith
    · exact zero_le_one
  rw [if_neg h1, if_neg (fun hx : x ≤ a => h1 (hx.trans h))]
  push Not at h1
  by_cases h2 : x ≤ c
  · rw [if_pos h2, if_pos h2]
    have p1 : 0 < b - a' := by linarith
    have p2 : 0 < c - a' := by linarith
    have p3 : 0 < b - a := by linarith
    have p4 : 0 < c - a := by linarith
    have k1 : (x - a') / (b - a') ≤ (x - a) / (b - a) := by
      rw [div_le_div_iff₀ p1 p3]; nlinarith [mul_nonneg (sub_nonneg.2 h) (sub_nonneg.2 (h2.trans hcb))]
    have k2 : (x - a') / (c - a') ≤ (x - a) / (c - a) := by
      rw [div_le_div_iff₀ p2 p4]; nlinarith [mul_nonneg (sub_nonneg.2 h) (sub_nonneg.2 h2)]
    have k3 : (x - a') / (b - a') * ((x - a') / (c - a')) ≤ (x - a) / (b - a) * ((x - a) / (c - a)) :=
      mul_le_mul k1 k2 (div_nonneg (by linarith) p2.le) (div_nonneg (by linarith) p3.le)
    rw [div_mul_div_comm, div_mul_div_comm, ← sq, ← sq] at k3
    exact k3
  rw [if_neg h2, if_neg h2]; push Not at h2
  by_cases h3 : x < b
  · rw [if_pos h3, if_pos h3]
    have p1 : 0 < b - a' := by linarith
    have p2 : 0 < b - c := by linarith
    have : (b - x) ^ 2 / ((b - a) * (b - c)) ≤ (b - x) ^ 2 / ((b - a') * (b - c)) := by gcongr
    linarith
  · rw [if_neg h3, if_neg h3]

theorem tri_shift (e x : ℝ) : triangularCDF (a + e) (b + e) (c + e) x = triangularCDF a b c (x - e) := by
  unfold triangularCDF
  simp only [sub_le_iff_le_add, sub_lt_iff_lt_add]
  rw [show x - (a + e) = x - e - a by ring, show b + e - (a + e) = b - a by ring, show c + e - (a + e) = c - a by ring,
    show b + e - x = b - (x - e) by ring, show b + e - (c + e) = b - c by ring]

theorem tri_lip (hac : a < c) (hcb : c < b) {x y : ℝ} (hxy : x ≤ y) : triangularCDF a b c y - triangularCDF a b c x ≤ 2 / (b - a) * (y - x) := by
  obtain ⟨_, hd⟩ := tri_density hac hcb
  have p1 : 0 < b - a := by linarith
  have p2 : 0 < c - a := by linarith
  have p3 : 0 < b - c := by linarith
  have i := hd.integrable
  rw [hd.cdf, hd.cdf, intervalIntegral.integral_Iic_sub_Iic i.integrableOn i.integrableOn]
  refine (le_abs_self _).trans ?_
  rw [← Real.norm_eq_abs]
  refine (intervalIntegral.norm_integral_le_of_norm_le_const (C := 2 / (b - a)) fun t _ => ?_).trans (by rw [abs_of_nonneg (by linarith)])
  rw [Real.norm_of_nonneg (hd.nonneg t)]
  unfold triangularPDF
  have z : (0:ℝ) ≤ 2 / (b - a) := by positivity
  split_ifs with h1 h2 h3 h4
  · exact z
  · rw [div_le_div_iff₀ (by positivity) p1]
    nlinarith [mul_nonneg p1.le (sub_nonneg.2 h2.le)]
  · exact le_rfl
  · push Not at h2
    rw [div_le_div_iff₀ (by positivity) p1]
    nlinarith [mul_nonneg p1.le (sub_nonneg.2 h2)]
  · exact z

/-- moving the upper corners by at most `e` changes the distribution function by at most `2 e / (b - a)` -/
theorem tri_pert {b' c' e : ℝ} (hac : a < c) (hcb : c < b) (hac' : a ≤ c') (hcb' : c' ≤ b') (hb : |b' - b| ≤ e) (hc : |c' - c| ≤ e) (x : ℝ) :
    |triangularCDF a b' c' x - triangularCDF a b c x| ≤ 2 / (b - a) * e := by
  obtain ⟨b1, b2⟩ := abs_le.1 hb
  obtain ⟨c1, c2⟩ := abs_le.1 hc
  have e0 : 0 ≤ e := (abs_nonneg _).trans hb
  -- both lie between the law shifted right and the law shifted left by `e`
  have lo : triangularCDF a b c (x - e) ≤ triangularCDF a b' c' x := by
    rw [← tri_shift]
    calc triangularCDF (a + e) (b + e) (c + e) x ≤ triangularCDF a (b + e) (c + e) x := tri_anti_a (by linarith) (by linarith) (by linarith) x
      _ ≤ triangularCDF a (b + e) c' x := tri_anti_c hac' (by linarith) (by linarith) x
      _ ≤ triangularCDF a b' c' x := tri_anti_b hac' hcb' (by linarith) x
  have hi : triangularCDF a b' c' x ≤ triangularCDF a b c (x + e) := by
    rw [show x + e = x - -e by ring, ← tri_shift]
    calc triangularCDF a b' c' x ≤ triangularCDF (a + -e) b' c' x := tri_anti_a (by linarith) hac' hcb' x
      _ ≤ triangularCDF (a + -e) b' (c + -e) x := tri_anti_c (by linarith) (by linarith) hcb' x
      _ ≤ triangularCDF (a + -e) (b + -e) (c + -e) x := tri_anti_b (by linarith) (by linarith) (by linarith) x
  have l1 := tri_lip hac hcb (x := x - e) (y := x) (by linarith)
  have l2 := tri_lip hac hcb (x := x) (y := x + e) (by linarith)
  rw [sub_sub_cancel] at l1
  rw [add_sub_cancel_left] at l2
  rw [abs_le]; constructor <;> linarith
end
end Rstat
