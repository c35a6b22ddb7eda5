import Verif.Props.FloatDensity2

/-! Relative forward error, for moments: `Rel a t k n` says that `t` lies between `2^-k` and `2^k` in magnitude and that the computed `a`
is within `n` units of `2^-52` of `t`, relatively. Products, quotients, square roots and sums of positives preserve it. -/
set_option linter.unusedSectionVars false
namespace Rstat
open F64

/-- `a` is a finite number within `n * 2^-52` of `t`, relatively, and `t` is between `2^-k` and `2^k` in magnitude -/
def Rel (a : F64) (t : ℝ) (k n : ℕ) : Prop := 1 / 2 ^ k ≤ |t| ∧ |t| ≤ 2 ^ k ∧ ∃ y, a.Is y ∧ |y - t| ≤ n / 2 ^ 52 * |t|

section
variable [FP] [FP.Lawful] [FP.Libm] [FP.Accurate] {a b : F64} {s t : ℝ} {j k m n : ℕ}

theorem size_grow {k l : ℕ} (h : k ≤ l) : (2:ℝ) ^ k ≤ 2 ^ l ∧ (1:ℝ) / 2 ^ l ≤ 1 / 2 ^ k :=
  ⟨pow_le_pow_right₀ (by norm_num) h, one_div_le_one_div_of_le (by positivity) (pow_le_pow_right₀ (by norm_num) h)⟩

namespace Rel

theorem pos_abs (h : Rel a t k n) : 0 < |t| := lt_of_lt_of_le (by positivity) h.1

theorem exact (h : a.Is t) (h1 : 1 / 2 ^ k ≤ |t|) (h2 : |t| ≤ 2 ^ k) : Rel a t k 0 := ⟨h1, h2, t, h, by simp⟩

theorem mono (h : Rel a t k n) {k' n' : ℕ} (hk : k ≤ k') (hn : n ≤ n') : Rel a t k' n' := by
  obtain ⟨h1, h2, y, hy, he⟩ := h
  refine ⟨(size_grow hk).2.trans h1, h2.trans (size_grow hk).1, y, hy, he.trans ?_⟩
  have : (n:ℝ) ≤ n' := by exact_mod_cast hn
  gcongr

theorem congr {s : ℝ} (h : Rel a t k n) (e : t = s) : Rel a s k n := e ▸ h

theorem neg (h : Rel a t k n) : Rel (-a) (-t) k n := by
  obtain ⟨h1, h2, y, hy, he⟩ := h
  refine ⟨by rwa [abs_neg], by rwa [abs_neg], -y, hy.neg, ?_⟩
  rwa [show -y - -t = -(y - t) by ring, abs_neg, abs_neg]

/-- narrowing the size bounds -/
theorem resize (h : Rel a t k n) {k' : ℕ} (h1 : 1 / 2 ^ k' ≤ |t|) (h2 : |t| ≤ 2 ^ k') : Rel a t k' n := ⟨h1, h2, h.2.2⟩

/-- one rounding -/
theorem round {y t : ℝ} (h1 : 1 / 2 ^ k ≤ |t|) (h2 : |t| ≤ 2 ^ k) (hk : k ≤ 900) (hn : n ≤ 1000000)
    (h : |y - t| ≤ (n + 1 / 4) / 2 ^ 52 * |t|) : ∃ R, (F64.round y).Is R ∧ |R - t| ≤ ((n + 1 : ℕ) : ℝ) / 2 ^ 52 * |t| := by
  have t0 := abs_nonneg t
  have hn' : (n:ℝ) ≤ 1000000 := by exact_mod_cast hn
  have c1 : ((n:ℝ) + 1 / 4) / 2 ^ 52 ≤ 1 / 2 ^ 30 := by
    rw [div_le_div_iff₀ (by positivity) (by positivity)]; nlinarith
  have hy : |y| ≤ (1 + 1 / 2 ^ 30) * |t| := by
    have := abs_add_le (y - t) t
    rw [sub_add_cancel] at this
    have : (((n:ℝ) + 1 / 4) / 2 ^ 52) * |t| ≤ 1 / 2 ^ 30 * |t| := by gcongr
    linarith
  have ht2 : |t| ≤ 2 ^ 900 := h2.trans (size_grow hk).1
  have hy2 : |y| ≤ 2 ^ 1020 := by
    refine le_trans ?_ (scale_2 ht2)
    refine hy.trans ?_
    gcongr
    norm_num
  obtain ⟨R, hR, hRe⟩ := round_near hy2
  refine ⟨R, hR, ?_⟩
  have tn := tiny_scale ((size_grow hk).2.trans h1)
  have h3 := abs_add_le (R - y) (y - t)
  rw [sub_add_sub_cancel] at h3
  have h4 : |y| / 2 ^ 53 ≤ (1 + 1 / 2 ^ 30) * |t| / 2 ^ 53 := by gcongr
  clear h1 h2 hy2 ht2
  generalize (1:ℝ) / 2 ^ 1075 = τ at *
  push_cast
  have e : ((n:ℝ) + 1) / 2 ^ 52 * |t| = (n + 1 / 4) / 2 ^ 52 * |t| + 3 / 4 / 2 ^ 52 * |t| := by ring
  rw [e]
  have : (1 + 1 / 2 ^ 30) * |t| / 2 ^ 53 + |t| / 2 ^ 120 ≤ 3 / 4 / 2 ^ 52 * |t| := by
    have : (1 + 1 / 2 ^ 30) / 2 ^ 53 + 1 / 2 ^ 120 ≤ (3:ℝ) / 4 / 2 ^ 52 := by norm_num
    calc (1 + 1 / 2 ^ 30) * |t| / 2 ^ 53 + |t| / 2 ^ 120 = ((1 + 1 / 2 ^ 30) / 2 ^ 53 + 1 / 2 ^ 120) * |t| := by ring
      _ ≤ _ := by gcongr
  linarith only [h3, hRe, h4, tn, this, h]

theorem mul (ha : Rel a s j m) (hb : Rel b t k n) (hk : j + k ≤ 900) (hn : m + n ≤ 1000000) : Rel (a * b) (s * t) (j + k) (m + n + 1) := by
  obtain ⟨a1, a2, x, hx, hxe⟩ := ha
  obtain ⟨b1, b2, y, hy, hye⟩ := hb
  have g1 : 1 / 2 ^ (j + k) ≤ |s * t| := by
    rw [abs_mul, pow_add, ← one_div_mul_one_div]; gcongr
  have g2 : |s * t| ≤ 2 ^ (j + k) := by rw [abs_mul, pow_add]; gcongr
  refine ⟨g1, g2, ?_⟩
  have e : |x * y - s * t| ≤ ((m + n : ℕ) + 1 / 4) / 2 ^ 52 * |s * t| := by
    have e1 : x * y - s * t = (x - s) * (y - t) + (x - s) * t + s * (y - t) := by ring
    have hm' : (m:ℝ) ≤ 1000000 := by exact_mod_cast (by omega : m ≤ 1000000)
    have hn' : (n:ℝ) ≤ 1000000 := by exact_mod_cast (by omega : n ≤ 1000000)
    have s0 := abs_nonneg s; have t0 := abs_nonneg t
    have q1 : |(x - s) * (y - t)| ≤ (m / 2 ^ 52 * |s|) * (n / 2 ^ 52 * |t|) := by rw [abs_mul]; gcongr
    have q2 : |(x - s) * t| ≤ (m / 2 ^ 52 * |s|) * |t| := by rw [abs_mul]; gcongr
    have q3 : |s * (y - t)| ≤ |s| * (n / 2 ^ 52 * |t|) := by rw [abs_mul]; gcongr
    have q4 : ((m:ℝ) / 2 ^ 52 * |s|) * (n / 2 ^ 52 * |t|) ≤ 1 / 4 / 2 ^ 52 * (|s| * |t|) := by
      have : (m:ℝ) * n / 2 ^ 52 ≤ 1 / 4 := by
        rw [div_le_iff₀ (by positivity)]
        have : (m:ℝ) * n ≤ 1000000 * 1000000 := by gcongr
        linarith
      calc ((m:ℝ) / 2 ^ 52 * |s|) * (n / 2 ^ 52 * |t|) = ((m:ℝ) * n / 2 ^ 52) / 2 ^ 52 * (|s| * |t|) := by ring
        _ ≤ _ := by gcongr
    have q5 := abs_add_le ((x - s) * (y - t) + (x - s) * t) (s * (y - t))
    have q6 := abs_add_le ((x - s) * (y - t)) ((x - s) * t)
    rw [e1, abs_mul]
    push_cast
    have : ((m:ℝ) + n + 1 / 4) / 2 ^ 52 * (|s| * |t|) = 1 / 4 / 2 ^ 52 * (|s| * |t|) + (m / 2 ^ 52 * |s|) * |t| + |s| * (n / 2 ^ 52 * |t|) := by
      ring
    rw [this]
    linarith only [q1, q2, q3, q4, q5, q6]
  obtain ⟨R, hR, hRe⟩ := round g1 g2 hk hn e
  exact ⟨R, hR.of_ext (mul_fin_ext hx hy).symm, hRe⟩

theorem div (ha : Rel a s j m) (hb : Rel b t k n) (hk : j + k ≤ 900) (hn : m + n ≤ 1000000) : Rel (a / b) (s / t) (j + k) (m + n + 1) := by
  have tp := hb.pos_abs
  obtain ⟨a1, a2, x, hx, hxe⟩ := ha
  obtain ⟨b1, b2, y, hy, hye⟩ := hb
  have hm' : (m:ℝ) ≤ 1000000 := by exact_mod_cast (by omega : m ≤ 1000000)
  have hn' : (n:ℝ) ≤ 1000000 := by exact_mod_cast (by omega : n ≤ 1000000)
  have tb : 1 / |t| ≤ 2 ^ k := by rw [div_le_iff₀ tp]; rw [div_le_iff₀ (by positivity)] at b1; linarith
  have tb2 : 1 / 2 ^ k ≤ 1 / |t| := one_div_le_one_div_of_le tp b2
  have g1 : 1 / 2 ^ (j + k) ≤ |s / t| := by
    rw [abs_div, pow_add, ← one_div_mul_one_div, div_eq_mul_one_div |s| |t|]; gcongr
  have g2 : |s / t| ≤ 2 ^ (j + k) := by rw [abs_div, pow_add, div_eq_mul_one_div |s| |t|]; gcongr
  refine ⟨g1, g2, ?_⟩
  have s0 := abs_nonneg s
  have c : (n:ℝ) / 2 ^ 52 ≤ 1 / 2 ^ 30 := by rw [div_le_div_iff₀ (by positivity) (by positivity)]; nlinarith
  have hyt : (1 - 1 / 2 ^ 30) * |t| ≤ |y| := by
    have h1 := abs_sub_abs_le_abs_sub t y
    rw [abs_sub_comm] at h1
    have : (n:ℝ) / 2 ^ 52 * |t| ≤ 1 / 2 ^ 30 * |t| := by gcongr
    linarith
  have yp : 0 < |y| := lt_of_lt_of_le (mul_pos (by norm_num) tp) hyt
  have y0 : y ≠ 0 := abs_pos.1 yp
  have t0 : t ≠ 0 := abs_pos.1 tp
  have e : |x / y - s / t| ≤ ((m + n : ℕ) + 1 / 4) / 2 ^ 52 * |s / t| := by
    have e1 : x / y - s / t = ((x - s) * t - s * (y - t)) / (y * t) := by field_simp; ring
    have q : |(x - s) * t - s * (y - t)| ≤ (m + n) / 2 ^ 52 * (|s| * |t|) := by
      refine (abs_sub _ _).trans ?_
      rw [abs_mul, abs_mul]
      have q2 : |x - s| * |t| ≤ (m / 2 ^ 52 * |s|) * |t| := by gcongr
      have q3 : |s| * |y - t| ≤ |s| * (n / 2 ^ 52 * |t|) := by gcongr
      calc _ ≤ _ := add_le_add q2 q3
        _ = _ := by ring
    rw [e1, abs_div, abs_mul, abs_div, div_le_iff₀ (mul_pos yp tp)]
    push_cast
    refine q.trans ?_
    have : ((m:ℝ) + n + 1 / 4) / 2 ^ 52 * (|s| / |t|) * (|y| * |t|) = ((m:ℝ) + n + 1 / 4) / 2 ^ 52 * |s| * |y| := by field_simp
    rw [this]
    have w : ((m:ℝ) + n) ≤ (m + n + 1 / 4) * (1 - 1 / 2 ^ 30) := by
      have : ((m:ℝ) + n) / 2 ^ 30 ≤ 1 / 8 := by rw [div_le_iff₀ (by positivity)]; linarith
      have e2 : ((m:ℝ) + n + 1 / 4) * (1 - 1 / 2 ^ 30) = (m + n) + 1 / 4 - (m + n) / 2 ^ 30 - 1 / 4 / 2 ^ 30 := by ring
      rw [e2]
      have : (1:ℝ) / 4 / 2 ^ 30 ≤ 1 / 8 := by norm_num
      linarith
    calc ((m:ℝ) + n) / 2 ^ 52 * (|s| * |t|) ≤ ((m + n + 1 / 4) * (1 - 1 / 2 ^ 30)) / 2 ^ 52 * (|s| * |t|) := by gcongr
      _ = (m + n + 1 / 4) / 2 ^ 52 * |s| * ((1 - 1 / 2 ^ 30) * |t|) := by ring
      _ ≤ _ := by gcongr
  obtain ⟨R, hR, hRe⟩ := round g1 g2 hk hn e
  exact ⟨R, hR.of_ext (div_fin_ext hx hy y0).symm, hRe⟩

/-- a sum whose cancellation is at most `r`-fold -/
theorem add_amp (r : ℕ) (ha : Rel a s j n) (hb : Rel b t j n) (g1 : 1 / 2 ^ k ≤ |s + t|) (g2 : |s + t| ≤ 2 ^ k) (hr : |s| + |t| ≤ r * |s + t|)
    (hk : k ≤ 900) (hn : r * n ≤ 1000000) : Rel (a + b) (s + t) k (r * n + 1) := by
  obtain ⟨-, -, x, hx, hxe⟩ := ha
  obtain ⟨-, -, y, hy, hye⟩ := hb
  refine ⟨g1, g2, ?_⟩
  have e : |x + y - (s + t)| ≤ ((r * n : ℕ) + 1 / 4) / 2 ^ 52 * |s + t| := by
    rw [show x + y - (s + t) = (x - s) + (y - t) by ring]
    refine (abs_add_le _ _).trans ?_
    have q : (n:ℝ) / 2 ^ 52 * (|s| + |t|) ≤ n / 2 ^ 52 * (r * |s + t|) := by gcongr
    have p : 0 ≤ (1:ℝ) / 4 / 2 ^ 52 * |s + t| := by positivity
    push_cast
    have : ((r:ℝ) * n + 1 / 4) / 2 ^ 52 * |s + t| = n / 2 ^ 52 * (r * |s + t|) + 1 / 4 / 2 ^ 52 * |s + t| := by ring
    rw [this]
    linarith
  obtain ⟨R, hR, hRe⟩ := round g1 g2 hk hn e
  exact ⟨R, hR.of_ext (add_ext hx hy).symm, hRe⟩

/-- a difference whose cancellation is at most `r`-fold -/
theorem sub_amp (r : ℕ) (ha : Rel a s j n) (hb : Rel b t j n) (g1 : 1 / 2 ^ k ≤ |s - t|) (g2 : |s - t| ≤ 2 ^ k) (hr : |s| + |t| ≤ r * |s - t|)
    (hk : k ≤ 900) (hn : r * n ≤ 1000000) : Rel (a - b) (s - t) k (r * n + 1) := by
  rw [sub_eq_add_neg] at *
  exact add_amp r ha hb.neg g1 g2 (by rwa [abs_neg]) hk hn

/-- the sum of two positive numbers -/
theorem add (ha : Rel a s k n) (hb : Rel b t k n) (s0 : 0 < s) (t0 : 0 < t) (hk : k + 1 ≤ 900) (hn : n ≤ 1000000) :
    Rel (a + b) (s + t) (k + 1) (n + 1) := by
  have a1 := ha.1; have a2 := ha.2.1; have b2 := hb.2.1
  have st : 0 < s + t := by linarith
  rw [abs_of_pos s0] at a1 a2
  rw [abs_of_pos t0] at b2
  have := add_amp (k := k + 1) 1 ha hb ((size_grow (Nat.le_succ k)).2.trans (by rw [abs_of_pos st]; linarith))
    (by rw [abs_of_pos st, pow_succ]; linarith) (by rw [abs_of_pos s0, abs_of_pos t0, abs_of_pos st]; norm_num) hk (by omega)
  simpa using this

/-- the difference of two exact numbers -/
theorem sub (ha : a.Is s) (hb : b.Is t) (g1 : 1 / 2 ^ k ≤ |s - t|) (g2 : |s - t| ≤ 2 ^ k) (hk : k ≤ 900) : Rel (a - b) (s - t) k 1 := by
  refine ⟨g1, g2, ?_⟩
  obtain ⟨R, hR, hRe⟩ := round (n := 0) g1 g2 hk (by norm_num) (y := s - t) (by rw [sub_self, abs_zero]; positivity)
  exact ⟨R, hR.of_ext (add_ext ha hb.neg).symm, hRe⟩

theorem sqrt (ha : Rel a s k n) (s0 : 0 < s) (hk : k ≤ 900) (hn : n ≤ 1000000) : Rel a.sqrt (√s) k (n + 1) := by
  obtain ⟨a1, a2, x, hx, hxe⟩ := ha
  rw [abs_of_pos s0] at a1 a2 hxe
  have hn' : (n:ℝ) ≤ 1000000 := by exact_mod_cast hn
  have c : (n:ℝ) / 2 ^ 52 ≤ 1 / 2 := by rw [div_le_div_iff₀ (by positivity) (by positivity)]; nlinarith
  have x0 : 0 < x := by
    obtain ⟨h, _⟩ := abs_le.1 hxe
    have : (n:ℝ) / 2 ^ 52 * s ≤ 1 / 2 * s := by gcongr
    linarith
  have sp := Real.sqrt_pos.2 s0
  have g1 : 1 / 2 ^ k ≤ |√s| := by
    rw [abs_of_pos sp]
    apply Real.le_sqrt_of_sq_le
    refine le_trans ?_ a1
    have : (1:ℝ) / 2 ^ k ≤ 1 := by rw [div_le_one (by positivity)]; exact one_le_pow₀ (by norm_num)
    have : (0:ℝ) ≤ 1 / 2 ^ k := by positivity
    nlinarith
  have g2 : |√s| ≤ 2 ^ k := by
    rw [abs_of_pos sp]
    rw [Real.sqrt_le_left (by positivity)]
    have : (1:ℝ) ≤ 2 ^ k := one_le_pow₀ (by norm_num)
    nlinarith
  refine ⟨g1, g2, ?_⟩
  have e := sqrt_pert s0 x0.le hxe
  obtain ⟨R, hR, hRe⟩ := round g1 g2 hk hn (e.trans (by rw [abs_of_pos sp]; gcongr; linarith))
  refine ⟨R, ?_, hRe⟩
  rw [hx.eq_fin x0.ne']
  unfold F64.sqrt
  dsimp only
  rw [if_neg (not_lt.2 x0.le)]
  exact hR

/-- a literal -/
theorem lit (h1 : 1 / 2 ^ k ≤ |t|) (h2 : |t| ≤ 2 ^ k) (hk : k ≤ 900) : Rel (F64.lit t) t k 1 := by
  refine ⟨h1, h2, ?_⟩
  have := round (n := 0) (y := t) h1 h2 hk (by norm_num) (by rw [sub_self, abs_zero]; positivity)
  exact this

end Rel
end
end Rstat
