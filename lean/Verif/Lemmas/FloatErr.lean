import Verif.Lemmas.FloatSign

/-! Absolute forward error of rounded computations: `Within a t ε` says that the computed `a` is a finite number within `ε` of `t`. -/
set_option linter.unusedSectionVars false
namespace Rstat
open F64

/-- `a` is a finite number within `ε` of `t` -/
def Within (a : F64) (t ε : ℝ) : Prop := ∃ y, a.Is y ∧ |y - t| ≤ ε

namespace Within
theorem exact {a : F64} {t : ℝ} (h : a.Is t) : Within a t 0 := ⟨t, h, by simp⟩
theorem mono {a : F64} {t ε δ : ℝ} (h : Within a t ε) (hd : ε ≤ δ) : Within a t δ := by
  obtain ⟨y, h1, h2⟩ := h; exact ⟨y, h1, h2.trans hd⟩
theorem shift {a : F64} {s t ε δ : ℝ} (h : Within a s ε) (hd : |s - t| + ε ≤ δ) : Within a t δ := by
  obtain ⟨y, h1, h2⟩ := h
  refine ⟨y, h1, ?_⟩
  have := abs_add_le (y - s) (s - t)
  rw [sub_add_sub_cancel] at this
  linarith
theorem neg [FP] {a : F64} {t ε : ℝ} (h : Within a t ε) : Within (-a) (-t) ε := by
  obtain ⟨y, h1, h2⟩ := h
  refine ⟨-y, h1.neg, ?_⟩
  rwa [show -y - -t = -(y - t) by ring, abs_neg]

variable [FP] [FP.Lawful]

theorem tiny : (1:ℝ) / 2 ^ 1075 ≤ 1 / 2 ^ 120 :=
  one_div_le_one_div_of_le (by positivity) (pow_le_pow_right₀ (by norm_num) (by norm_num))

theorem huge_ok {x M : ℝ} (h : |x| ≤ M) (hM : M ≤ 2 ^ 200) : ¬ FP.huge (FP.rnd x) := by
  apply FP.Lawful.not_huge
  have e := FP.Lawful.rnd_err x
  have h2 : |FP.rnd x| ≤ |FP.rnd x - x| + |x| := by
    have := abs_add_le (FP.rnd x - x) x
    rwa [sub_add_cancel] at this
  have ht := tiny
  have s2 : (2:ℝ) ^ 202 ≤ 2 ^ 1023 := pow_le_pow_right₀ (by norm_num) (by norm_num)
  have s3 : |x| / 2 ^ 53 ≤ 2 ^ 200 := by
    rw [div_le_iff₀ (by positivity)]
    have : (0:ℝ) ≤ |x| := abs_nonneg x
    nlinarith
  have s4 : (1:ℝ) / 2 ^ 120 ≤ 1 := by norm_num
  generalize (2:ℝ) ^ 1023 = H at *
  generalize (1:ℝ) / 2 ^ 1075 = η at *
  have : (2:ℝ) ^ 202 = 4 * 2 ^ 200 := by norm_num
  linarith [show (1:ℝ) ≤ 2 ^ 200 by norm_num]

/-- rounding a number of size `M` within `ε` of `t` -/
theorem rnd {x t ε M ρ : ℝ} (h : |x - t| ≤ ε) (hM : |t| ≤ M) (hr : ε + (M + ε) / 2 ^ 53 + 1 / 2 ^ 120 ≤ ρ) : |FP.rnd x - t| ≤ ρ := by
  have e := FP.Lawful.rnd_err x
  have hx : |x| ≤ M + ε := by
    have := abs_add_le (x - t) t
    rw [sub_add_cancel] at this
    linarith
  have ht := tiny
  have h2 := abs_add_le (FP.rnd x - x) (x - t)
  rw [sub_add_sub_cancel] at h2
  have h3 : |x| / 2 ^ 53 ≤ (M + ε) / 2 ^ 53 := by gcongr
  generalize (1:ℝ) / 2 ^ 1075 = η at *
  linarith

theorem size {x t ε M : ℝ} (h : |x - t| ≤ ε) (hM : |t| ≤ M) : |x| ≤ M + ε := by
  have := abs_add_le (x - t) t
  rw [sub_add_cancel] at this
  linarith

theorem round {x t ε M ρ : ℝ} (h : |x - t| ≤ ε) (hM : |t| ≤ M) (hr : ε + (M + ε) / 2 ^ 53 + 1 / 2 ^ 120 ≤ ρ) (hb : M + ε ≤ 2 ^ 200) :
    Within (F64.round x) t ρ := ⟨_, round_is (huge_ok (size h hM) hb), rnd h hM hr⟩

theorem add {a b : F64} {s t ε δ ρ : ℝ} (M : ℝ) (ha : Within a s ε) (hb : Within b t δ) (hM : |s + t| ≤ M)
    (hr : (ε + δ) + (M + (ε + δ)) / 2 ^ 53 + 1 / 2 ^ 120 ≤ ρ) (hs : M + (ε + δ) ≤ 2 ^ 200) : Within (a + b) (s + t) ρ := by
  obtain ⟨x, x1, x2⟩ := ha; obtain ⟨y, y1, y2⟩ := hb
  have h : |x + y - (s + t)| ≤ ε + δ := by
    rw [show x + y - (s + t) = (x - s) + (y - t) by ring]
    exact (abs_add_le _ _).trans (add_le_add x2 y2)
  exact ⟨_, add_is x1 y1 (huge_ok (size h hM) hs), rnd h hM hr⟩

theorem sub {a b : F64} {s t ε δ ρ : ℝ} (M : ℝ) (ha : Within a s ε) (hb : Within b t δ) (hM : |s - t| ≤ M)
    (hr : (ε + δ) + (M + (ε + δ)) / 2 ^ 53 + 1 / 2 ^ 120 ≤ ρ) (hs : M + (ε + δ) ≤ 2 ^ 200) : Within (a - b) (s - t) ρ := by
  obtain ⟨x, x1, x2⟩ := ha; obtain ⟨y, y1, y2⟩ := hb
  have h : |x - y - (s - t)| ≤ ε + δ := by
    rw [show x - y - (s - t) = (x - s) + -(y - t) by ring]
    refine (abs_add_le _ _).trans ?_
    rw [abs_neg]; exact add_le_add x2 y2
  exact ⟨_, sub_is x1 y1 (huge_ok (size h hM) hs), rnd h hM hr⟩

theorem mul {a b : F64} {s t ε δ ρ : ℝ} (S T : ℝ) (ha : Within a s ε) (hb : Within b t δ) (hS : |s| ≤ S) (hT : |t| ≤ T)
    (hr : (S * δ + T * ε + ε * δ) + (S * T + (S * δ + T * ε + ε * δ)) / 2 ^ 53 + 1 / 2 ^ 120 ≤ ρ)
    (hs : S * T + (S * δ + T * ε + ε * δ) ≤ 2 ^ 200) : Within (a * b) (s * t) ρ := by
  obtain ⟨x, x1, x2⟩ := ha; obtain ⟨y, y1, y2⟩ := hb
  have hε : 0 ≤ ε := (abs_nonneg _).trans x2
  have hδ : 0 ≤ δ := (abs_nonneg _).trans y2
  have hS0 : 0 ≤ S := (abs_nonneg _).trans hS
  have h : |x * y - s * t| ≤ S * δ + T * ε + ε * δ := by
    rw [show x * y - s * t = s * (y - t) + (x - s) * t + (x - s) * (y - t) by ring]
    refine (abs_add_le _ _).trans (add_le_add ((abs_add_le _ _).trans (add_le_add ?_ ?_)) ?_)
    · rw [abs_mul]; exact mul_le_mul hS y2 (abs_nonneg _) hS0
    · rw [abs_mul, mul_comm T]; exact mul_le_mul x2 hT (abs_nonneg _) hε
    · rw [abs_mul]; exact mul_le_mul x2 y2 (abs_nonneg _) hε
  have hM : |s * t| ≤ S * T := by rw [abs_mul]; exact mul_le_mul hS hT (abs_nonneg _) hS0
  exact ⟨_, mul_is x1 y1 (huge_ok (size h hM) hs), rnd h hM hr⟩

/-- division of exact numbers -/
theorem div_exact {a b : F64} {s t ρ : ℝ} (M : ℝ) (ha : a.Is s) (hb : b.Is t) (ht : t ≠ 0) (hM : |s / t| ≤ M)
    (hr : M / 2 ^ 53 + 1 / 2 ^ 120 ≤ ρ) (hs : M ≤ 2 ^ 200) : Within (a / b) (s / t) ρ :=
  ⟨_, div_is ha hb ht (huge_ok hM hs), rnd (ε := 0) (by simp) hM (by linarith)⟩

end Within
end Rstat
