import Verif.Lemmas.FloatRel5

/-! Error calculus relative to a scale: `OnScale a t w k n` says that the computed `a` is within `n` units of `2^-52` of the target `t`,
measured against a scale `w ≥ |t|` of moderate size. Used where a subtraction cancels and no relative bound can hold. -/
set_option linter.unusedSectionVars false
namespace Rstat
open F64

/-- `a` computes `t` up to `n · 2^-52 · w`, with `|t| ≤ w` and `w` between `2^-k` and `2^k` -/
def OnScale (a : F64) (t w : ℝ) (k n : ℕ) : Prop := 1 / 2 ^ k ≤ w ∧ w ≤ 2 ^ k ∧ |t| ≤ w ∧ ∃ y, a.Is y ∧ |y - t| ≤ n / 2 ^ 52 * w

section
variable [FP] [FP.Lawful] [FP.Libm] [FP.Accurate] {a b : F64} {s t v w : ℝ} {j k m n : ℕ}

namespace OnScale

theorem of_rel (h : Rel a t k n) : OnScale a t |t| k n := ⟨h.1, h.2.1, le_rfl, h.2.2⟩

theorem pos (h : OnScale a t w k n) : 0 < w := lt_of_lt_of_le (by positivity) h.1

theorem mono (h : OnScale a t w k n) {k' n' : ℕ} (hk : k ≤ k') (hn : n ≤ n') : OnScale a t w k' n' := by
  have hw := h.pos
  obtain ⟨h1, h2, h3, y, hy, he⟩ := h
  refine ⟨(size_grow hk).2.trans h1, h2.trans (size_grow hk).1, h3, y, hy, he.trans ?_⟩
  have : (n:ℝ) ≤ n' := by exact_mod_cast hn
  gcongr

theorem neg (h : OnScale a t w k n) : OnScale (-a) (-t) w k n := by
  obtain ⟨h1, h2, h3, y, hy, he⟩ := h
  refine ⟨h1, h2, by rwa [abs_neg], -y, hy.neg, ?_⟩
  rwa [show -y - -t = -(y - t) by ring, abs_neg]

theorem congr {t' w' : ℝ} (h : OnScale a t w k n) (e : t = t') (e' : w = w') : OnScale a t' w' k n := e ▸ e' ▸ h

/-- one rounding -/
theorem round {y t w : ℝ} (h1 : 1 / 2 ^ k ≤ w) (h2 : w ≤ 2 ^ k) (h3 : |t| ≤ w) (hk : k ≤ 900) (hn : n ≤ 1000000)
    (h : |y - t| ≤ (n + 1 / 4) / 2 ^ 52 * w) : ∃ R, (F64.round y).Is R ∧ |R - t| ≤ ((n + 1 : ℕ) : ℝ) / 2 ^ 52 * w := by
  have t0 : 0 < w := lt_of_lt_of_le (by positivity) h1
  have hn' : (n:ℝ) ≤ 1000000 := by exact_mod_cast hn
  have c1 : ((n:ℝ) + 1 / 4) / 2 ^ 52 ≤ 1 / 2 ^ 30 := by
    rw [div_le_div_iff₀ (by positivity) (by positivity)]; nlinarith
  have hy : |y| ≤ (1 + 1 / 2 ^ 30) * w := by
    have := abs_add_le (y - t) t
    rw [sub_add_cancel] at this
    have : (((n:ℝ) + 1 / 4) / 2 ^ 52) * w ≤ 1 / 2 ^ 30 * w := by gcongr
    linarith
  have ht2 : w ≤ 2 ^ 900 := h2.trans (size_grow hk).1
  have hy2 : |y| ≤ 2 ^ 1020 := by
    refine le_trans ?_ (scale_2 ht2)
    refine hy.trans ?_
    gcongr
    norm_num
  obtain ⟨R, hR, hRe⟩ := round_near hy2
  refine ⟨R, hR, ?_⟩
  have tn := tiny_scale ((size_grow hk).2.trans h1)
  have h5 := abs_add_le (R - y) (y - t)
  rw [sub_add_sub_cancel] at h5
  have h4 : |y| / 2 ^ 53 ≤ (1 + 1 / 2 ^ 30) * w / 2 ^ 53 := by gcongr
  clear h1 h2 hy2 ht2
  generalize (1:ℝ) / 2 ^ 1075 = τ at *
  push_cast
  have e : ((n:ℝ) + 1) / 2 ^ 52 * w = (n + 1 / 4) / 2 ^ 52 * w + 3 / 4 / 2 ^ 52 * w := by ring
  rw [e]
  have : (1 + 1 / 2 ^ 30) * w / 2 ^ 53 + w / 2 ^ 120 ≤ 3 / 4 / 2 ^ 52 * w := by
    have : (1 + 1 / 2 ^ 30) / 2 ^ 53 + 1 / 2 ^ 120 ≤ (3:ℝ) / 4 / 2 ^ 52 := by norm_num
    calc (1 + 1 / 2 ^ 30) * w / 2 ^ 53 + w / 2 ^ 120 = ((1 + 1 / 2 ^ 30) / 2 ^ 53 + 1 / 2 ^ 120) * w := by ring
      _ ≤ _ := by gcongr
  linarith only [h5, hRe, h4, tn, this, h]

/-- addition measured against one scale covering both operands and the result -/
theorem add {W : ℝ} (ha : OnScale a s v j m) (hb : OnScale b t w j n) (hW : v + w ≤ W) (hW2 : W ≤ 2 ^ k) (hjk : j ≤ k) (hk : k ≤ 900) (hn : m + n ≤ 1000000) :
    OnScale (a + b) (s + t) W k (m + n + 1) := by
  have v0 := ha.pos; have w0 := hb.pos
  obtain ⟨a1, a2, a3, x, hx, hxe⟩ := ha
  obtain ⟨b1, b2, b3, y, hy, hye⟩ := hb
  have g1 : 1 / 2 ^ k ≤ W := by have := (size_grow hjk).2; linarith
  have g3 : |s + t| ≤ W := by have := abs_add_le s t; linarith
  refine ⟨g1, hW2, g3, ?_⟩
  have e : |x + y - (s + t)| ≤ ((m + n : ℕ) + 1 / 4) / 2 ^ 52 * W := by
    have q := abs_add_le (x - s) (y - t)
    rw [show x - s + (y - t) = x + y - (s + t) by ring] at q
    have q1 : (m:ℝ) / 2 ^ 52 * v ≤ m / 2 ^ 52 * W := by gcongr; linarith
    have q2 : (n:ℝ) / 2 ^ 52 * w ≤ n / 2 ^ 52 * W := by gcongr; linarith
    have q3 : 0 ≤ 1 / 4 / 2 ^ 52 * W := mul_nonneg (by positivity) (by linarith)
    push_cast
    have : ((m:ℝ) + n + 1 / 4) / 2 ^ 52 * W = m / 2 ^ 52 * W + n / 2 ^ 52 * W + 1 / 4 / 2 ^ 52 * W := by ring
    rw [this]; linarith
  obtain ⟨R, hR, hRe⟩ := round g1 hW2 g3 hk hn e
  exact ⟨R, hR.of_ext (add_ext hx hy).symm, hRe⟩

theorem mul (ha : OnScale a s v j m) (hb : OnScale b t w k n) (hk : j + k ≤ 900) (hn : m + n ≤ 1000000) : OnScale (a * b) (s * t) (v * w) (j + k) (m + n + 1) := by
  have v0 := ha.pos; have w0 := hb.pos
  obtain ⟨a1, a2, a3, x, hx, hxe⟩ := ha
  obtain ⟨b1, b2, b3, y, hy, hye⟩ := hb
  have g1 : 1 / 2 ^ (j + k) ≤ v * w := by
    rw [pow_add, ← one_div_mul_one_div]; gcongr
  have g2 : v * w ≤ 2 ^ (j + k) := by rw [pow_add]; gcongr
  have g3 : |s * t| ≤ v * w := by rw [abs_mul]; gcongr
  refine ⟨g1, g2, g3, ?_⟩
  have e : |x * y - s * t| ≤ ((m + n : ℕ) + 1 / 4) / 2 ^ 52 * (v * w) := by
    have e1 : x * y - s * t = (x - s) * (y - t) + (x - s) * t + s * (y - t) := by ring
    have hm' : (m:ℝ) ≤ 1000000 := by exact_mod_cast (by omega : m ≤ 1000000)
    have hn' : (n:ℝ) ≤ 1000000 := by exact_mod_cast (by omega : n ≤ 1000000)
    have s0 := abs_nonneg s; have t0 := abs_nonneg t
    have q1 : |(x - s) * (y - t)| ≤ (m / 2 ^ 52 * v) * (n / 2 ^ 52 * w) := by rw [abs_mul]; gcongr
    have q2 : |(x - s) * t| ≤ (m / 2 ^ 52 * v) * w := by rw [abs_mul]; gcongr
    have q3 : |s * (y - t)| ≤ v * (n / 2 ^ 52 * w) := by rw [abs_mul]; gcongr
    have q4 : ((m:ℝ) / 2 ^ 52 * v) * (n / 2 ^ 52 * w) ≤ 1 / 4 / 2 ^ 52 * (v * w) := by
      have : (m:ℝ) * n / 2 ^ 52 ≤ 1 / 4 := by
        rw [div_le_iff₀ (by positivity)]
        have : (m:ℝ) * n ≤ 1000000 * 1000000 := by gcongr
        linarith
      calc ((m:ℝ) / 2 ^ 52 * v) * (n / 2 ^ 52 * w) = ((m:ℝ) * n / 2 ^ 52) / 2 ^ 52 * (v * w) := by ring
        _ ≤ _ := by gcongr
    have q5 := abs_add_le ((x - s) * (y - t) + (x - s) * t) (s * (y - t))
    have q6 := abs_add_le ((x - s) * (y - t)) ((x - s) * t)
    rw [e1]
    push_cast
    have : ((m:ℝ) + n + 1 / 4) / 2 ^ 52 * (v * w) = 1 / 4 / 2 ^ 52 * (v * w) + (m / 2 ^ 52 * v) * w + v * (n / 2 ^ 52 * w) := by
      ring
    rw [this]
    linarith only [q1, q2, q3, q4, q5, q6]
  obtain ⟨R, hR, hRe⟩ := round g1 g2 g3 hk hn e
  exact ⟨R, hR.of_ext (mul_fin_ext hx hy).symm, hRe⟩

/-- dividing by a relatively accurate positive number -/
theorem div (ha : OnScale a s v j m) (hb : Rel b t k n) (t0 : 0 < t) (hk : j + k ≤ 900) (hn : m + n ≤ 1000000) :
    OnScale (a / b) (s / t) (v / t) (j + k) (m + n + 1) := by
  have v0 := ha.pos
  obtain ⟨a1, a2, a3, x, hx, hxe⟩ := ha
  obtain ⟨b1, b2, y, hy, hye⟩ := hb
  rw [abs_of_pos t0] at b1 b2 hye
  have g1 : 1 / 2 ^ (j + k) ≤ v / t := by
    rw [pow_add, ← div_div, div_eq_mul_one_div, div_eq_mul_one_div v]
    gcongr
  have g2 : v / t ≤ 2 ^ (j + k) := by
    rw [pow_add, div_le_iff₀ t0]
    calc v ≤ 2 ^ j := a2
      _ = 2 ^ j * 2 ^ k * (1 / 2 ^ k) := by field_simp
      _ ≤ _ := by gcongr
  have g3 : |s / t| ≤ v / t := by rw [abs_div, abs_of_pos t0]; gcongr
  refine ⟨g1, g2, g3, ?_⟩
  have hm' : (m:ℝ) ≤ 1000000 := by exact_mod_cast (by omega : m ≤ 1000000)
  have hn' : (n:ℝ) ≤ 1000000 := by exact_mod_cast (by omega : n ≤ 1000000)
  have nn : (n:ℝ) / 2 ^ 52 ≤ 1 / 2 ^ 30 := by rw [div_le_div_iff₀ (by positivity) (by positivity)]; nlinarith
  have y1 : t * (1 - n / 2 ^ 52) ≤ y := by have := (abs_le.1 hye).1; linarith
  have y0 : 0 < y := lt_of_lt_of_le (mul_pos t0 (by norm_num at nn ⊢; linarith)) y1
  have e : |x / y - s / t| ≤ ((m + n : ℕ) + 1 / 4) / 2 ^ 52 * (v / t) := by
    have e1 : x / y - s / t = ((x - s) * t - s * (y - t)) / (y * t) := by field_simp; ring
    rw [e1, abs_div, abs_of_pos (mul_pos y0 t0), div_le_iff₀ (mul_pos y0 t0)]
    have q1 : |(x - s) * t| ≤ m / 2 ^ 52 * v * t := by rw [abs_mul, abs_of_pos t0]; gcongr
    have q2 : |s * (y - t)| ≤ v * (n / 2 ^ 52 * t) := by rw [abs_mul]; gcongr
    have q3 := abs_sub ((x - s) * t) (s * (y - t))
    have q4 : ((m + n : ℕ) + 1 / 4 : ℝ) / 2 ^ 52 * (v / t) * (t * (1 - n / 2 ^ 52) * t) ≤ ((m + n : ℕ) + 1 / 4 : ℝ) / 2 ^ 52 * (v / t) * (y * t) := by
      gcongr
    have q5 : ((m + n : ℕ) + 1 / 4 : ℝ) / 2 ^ 52 * (v / t) * (t * (1 - n / 2 ^ 52) * t) = ((m + n : ℕ) + 1 / 4 : ℝ) * (1 - n / 2 ^ 52) / 2 ^ 52 * (v * t) := by
      field_simp
    have q6 : ((m:ℝ) + n) / 2 ^ 52 * (v * t) ≤ ((m + n : ℕ) + 1 / 4 : ℝ) * (1 - n / 2 ^ 52) / 2 ^ 52 * (v * t) := by
      have : (m:ℝ) + n ≤ ((m + n : ℕ) + 1 / 4 : ℝ) * (1 - n / 2 ^ 52) := by
        push_cast
        have hs : (m:ℝ) + n ≤ 1000000 := by exact_mod_cast hn
        have n0 : (0:ℝ) ≤ n := by positivity
        have m0 : (0:ℝ) ≤ m := by positivity
        have : ((m:ℝ) + n + 1 / 4) * (n / 2 ^ 52) ≤ 1000001 * (1000000 / 2 ^ 52) := by gcongr; linarith
        norm_num at this ⊢
        linarith
      gcongr
    have q7 : ((m:ℝ) + n) / 2 ^ 52 * (v * t) = m / 2 ^ 52 * v * t + v * (n / 2 ^ 52 * t) := by ring
    linarith only [q1, q2, q3, q4, q5, q6, q7]
  obtain ⟨R, hR, hRe⟩ := round g1 g2 g3 hk hn e
  have ht : |s| ≤ v := a3
  exact ⟨R, hR.of_ext (div_fin_ext hx hy y0.ne').symm, hRe⟩

end OnScale

/-- a left-to-right sum of positive exact terms of ordinary size is relatively accurate -/
theorem rel_sum_pos {xs : List F64} {rs : List ℝ} (h : List.Forall₂ F64.Is xs rs) (hr : ∀ r ∈ rs, 1 / 2 ^ 60 ≤ r ∧ r ≤ 2 ^ 60) (hne : rs ≠ [])
    (hl : rs.length ≤ 100000) : Rel (F64.sum xs) rs.sum 80 rs.length := by
  have key : ∀ (xs : List F64) (rs : List ℝ), List.Forall₂ F64.Is xs rs → (∀ r ∈ rs, 1 / 2 ^ 60 ≤ r ∧ r ≤ 2 ^ 60) →
      ∀ (acc : F64) (y s : ℝ) (m : ℕ), m + rs.length ≤ 100000 → acc.Is y → 0 ≤ s → s ≤ m * 2 ^ 60 → |y - s| ≤ m / 2 ^ 52 * s →
      ∃ y', (xs.foldl (· + ·) acc).Is y' ∧ |y' - (s + rs.sum)| ≤ (m + rs.length : ℕ) / 2 ^ 52 * (s + rs.sum) ∧
        s + rs.sum ≤ (m + rs.length : ℕ) * 2 ^ 60 ∧ s ≤ s + rs.sum := by
    intro xs rs h
    induction h with
    | nil => intro _ acc y s m _ hy s0 hs he; exact ⟨y, hy, by simpa using he, by simpa using hs, by simp⟩
    | @cons x r xs rs hx h ih =>
      intro hr acc y s m hm hy s0 hs he
      obtain ⟨r1, r2⟩ := hr r (by simp)
      have r0 : 0 < r := lt_of_lt_of_le (by positivity) r1
      simp only [List.length_cons] at hm
      have hm' : (m:ℝ) + 1 ≤ 100000 := by exact_mod_cast (by omega : m + 1 ≤ 100000)
      have hsr : |s + r| = s + r := abs_of_pos (by linarith)
      have g1 : 1 / 2 ^ 80 ≤ |s + r| := by
        rw [hsr]; have : (1:ℝ) / 2 ^ 80 ≤ 1 / 2 ^ 60 := by norm_num
        linarith
      have g2 : |s + r| ≤ 2 ^ 80 := by
        rw [hsr]
        have : (m:ℝ) * 2 ^ 60 + 2 ^ 60 ≤ 100000 * 2 ^ 60 := by nlinarith
        have : (100000:ℝ) * 2 ^ 60 ≤ 2 ^ 80 := by norm_num
        linarith
      have e : |y + r - (s + r)| ≤ ((m:ℝ) + 1 / 4) / 2 ^ 52 * |s + r| := by
        rw [hsr, add_sub_add_right_eq_sub]
        refine he.trans ?_
        have : (m:ℝ) ≤ m + 1 / 4 := by linarith
        gcongr
        linarith
      obtain ⟨R, hR, hRe⟩ := Rel.round g1 g2 (by norm_num) (by omega) e
      rw [hsr] at hRe
      obtain ⟨y', h1, h2, h3, h4⟩ := ih (fun q hq => hr q (by simp [hq])) (acc + x) R (s + r) (m + 1) (by omega) (hR.of_ext (add_ext hy hx).symm)
        (by linarith) (by push_cast; nlinarith) hRe
      refine ⟨y', h1, ?_, ?_, ?_⟩
      · rw [List.sum_cons, ← add_assoc, List.length_cons, show m + (rs.length + 1) = m + 1 + rs.length by omega]; exact h2
      · rw [List.sum_cons, ← add_assoc, List.length_cons, show m + (rs.length + 1) = m + 1 + rs.length by omega]; exact h3
      · rw [List.sum_cons]; linarith
  obtain ⟨y, hy, he, hs, -⟩ := key xs rs h hr 0 0 0 0 (by omega) Is.zero le_rfl (by simp) (by simp)
  rw [zero_add] at he hs
  rw [Nat.zero_add] at he hs
  have hpos : 1 / 2 ^ 60 ≤ rs.sum := by
    cases rs with
    | nil => exact absurd rfl hne
    | cons r rs =>
      rw [List.sum_cons]
      have := (hr r (by simp)).1
      have : 0 ≤ rs.sum := List.sum_nonneg fun q hq => le_trans (by positivity) (hr q (by simp [hq])).1
      linarith
  have h0 : 0 < rs.sum := lt_of_lt_of_le (by positivity) hpos
  refine ⟨?_, ?_, y, hy, ?_⟩
  · rw [abs_of_pos h0]; refine le_trans ?_ hpos; norm_num
  · rw [abs_of_pos h0]
    have hl' : (rs.length : ℝ) ≤ 100000 := by exact_mod_cast hl
    refine hs.trans ?_
    calc (rs.length : ℝ) * 2 ^ 60 ≤ 100000 * 2 ^ 60 := by gcongr
      _ ≤ _ := by norm_num
  · rw [abs_of_pos h0]; exact he
end
end Rstat
