import Verif.Lemmas.FloatMono
import Verif.Lemmas.DistBase
import Verif.Model.Consts
import Mathlib.Analysis.Real.Pi.Bounds

/-! Signs and ranges of rounded results. -/
set_option linter.unusedSectionVars false
namespace Rstat
open F64 Consts
variable [FP] [FP.Lawful]

theorem nn_mul {a : F64} {k : ℝ} (hk : 0 < k) (h : (0 : F64) ≤ a) : (0 : F64) ≤ a * fin k := by
  have h1 := mul_const_mono hk h
  have h2 : ((0 : F64) * fin k).Is 0 := by
    have := mul_finite Is.zero (Is.fin k)
    rw [if_pos (zero_mul k)] at this
    rw [this]; exact szero_is _
  exact le_trans' (Is.zero.le_iff h2 |>.2 le_rfl) h1
theorem mul_nn {a : F64} {k : ℝ} (hk : 0 < k) (h : (0 : F64) ≤ a) : (0 : F64) ≤ fin k * a := mul_nonneg_of hk h
theorem zero_div_is {k : ℝ} (hk : 0 < k) : ((0 : F64) / fin k).Is 0 := by
  have h := div_fin_ext Is.zero (Is.fin k) hk.ne'
  rw [zero_div] at h
  exact round_zero_is.of_ext h.symm
theorem nn_div {a : F64} {k : ℝ} (hk : 0 < k) (h : (0 : F64) ≤ a) : (0 : F64) ≤ a / fin k :=
  le_trans' (Is.zero.le_iff (zero_div_is hk) |>.2 le_rfl) (div_const_mono hk h)
theorem nn_add {a b : F64} (ha : (0 : F64) ≤ a) (hb : (0 : F64) ≤ b) : (0 : F64) ≤ a + b := by
  rcases nonneg_cases ha with rfl | ⟨r, hr, h0⟩
  · rcases nonneg_cases hb with rfl | ⟨s, hs, _⟩
    · rw [show pinf + pinf = pinf from rfl]; exact le_pinf Is.zero
    · rw [pinf_add hs]; exact le_pinf Is.zero
  · rcases nonneg_cases hb with rfl | ⟨s, hs, h1⟩
    · rw [fin_add_pinf hr]; exact le_pinf Is.zero
    · have := add_ext hr hs
      exact le_congr rfl this.symm (round_nonneg (add_nonneg h0 h1))
theorem nn_fin {k : ℝ} (hk : 0 ≤ k) : (0 : F64) ≤ fin k := Is.zero.le_iff (Is.fin k) |>.2 hk
theorem nn_is {a : F64} {k : ℝ} (h : a.Is k) (hk : 0 ≤ k) : (0 : F64) ≤ a := Is.zero.le_iff h |>.2 hk
theorem fin_sq_nn (r : ℝ) : (0 : F64) ≤ fin r * fin r :=
  le_congr rfl (mul_fin_ext (Is.fin r) (Is.fin r)).symm (round_nonneg (mul_self_nonneg r))
theorem is_sq_nn {a : F64} {r : ℝ} (h : a.Is r) : (0 : F64) ≤ a * a :=
  le_congr rfl (mul_fin_ext h h).symm (round_nonneg (mul_self_nonneg r))

/-- finite with value between the bounds -/
def Btw (lo hi : ℝ) (x : F64) : Prop := ∃ r, x.Is r ∧ lo ≤ r ∧ r ≤ hi
/-- bounds that rounding keeps -/
def Keep (s : ℝ) : Prop := FP.rnd s = s ∧ ¬ FP.huge s

theorem keep_dyadic (m : ℤ) (e : ℕ) (hm : |m| ≤ 2 ^ 53) (he : e ≤ 1000) : Keep ((m:ℝ) / 2 ^ e) := by
  refine ⟨FP.Lawful.rnd_dyadic m e hm he, FP.Lawful.not_huge _ ?_⟩
  rw [abs_div, abs_of_pos (show (0:ℝ) < 2 ^ e by positivity)]
  have h1 : |(m:ℝ)| ≤ 2 ^ 53 := by exact_mod_cast hm
  calc |(m:ℝ)| / 2 ^ e ≤ |(m:ℝ)| / 1 := by
        apply div_le_div_of_nonneg_left (abs_nonneg _) one_pos (one_le_pow₀ (by norm_num))
    _ ≤ 2 ^ 1023 := by rw [div_one]; exact h1.trans (pow_le_pow_right₀ (by norm_num) (by norm_num))
theorem keep_int (m : ℤ) (hm : |m| ≤ 2 ^ 53) : Keep (m:ℝ) := by simpa using keep_dyadic m 0 hm (by norm_num)

theorem keep_eq {s : ℝ} (m : ℤ) (e : ℕ) (hs : s = (m:ℝ) / 2 ^ e) (hm : |m| ≤ 2 ^ 53) (he : e ≤ 1000) : Keep s :=
  hs ▸ keep_dyadic m e hm he
macro "keep" m:term:max e:term:max : term => `(keep_eq $m $e (by norm_num) (by norm_num) (by norm_num))

theorem btw_of_le {lo hi : ℝ} {x : F64} (h1 : fin lo ≤ x) (h2 : x ≤ fin hi) : Btw lo hi x := by
  obtain ⟨_, _, h1⟩ := le_cases.1 h1
  obtain ⟨_, _, h2⟩ := le_cases.1 h2
  rcases h2 with rfl | h2 | ⟨r, s, hr, hs, h2⟩
  · rcases h1 with h | h | ⟨r, s, _, hs, _⟩
    · cases h
    · cases h
    · rcases hs with h | ⟨h, _⟩ <;> cases h
  · cases h2
  · rcases h1 with h | rfl | ⟨r', s', hr', hs', h1⟩
    · cases h
    · rcases hr with h | ⟨h, _⟩ <;> cases h
    · have e1 := hr.eq hs'
      have e2 := (Is.fin hi).eq hs
      have e3 := (Is.fin lo).eq hr'
      subst e1 e2 e3
      exact ⟨r, hr, h1, h2⟩
theorem round_btw {lo hi r : ℝ} (kl : Keep lo) (kh : Keep hi) (h1 : lo ≤ r) (h2 : r ≤ hi) : Btw lo hi (F64.round r) :=
  btw_of_le (le_round_of_le h1 kl.1 kl.2) (round_le_of_le h2 kh.1 kh.2)
theorem Btw.of_ext {lo hi : ℝ} {x y : F64} (h : Btw lo hi x) (e : x.ext = y.ext) : Btw lo hi y := by
  obtain ⟨r, hr, h⟩ := h; exact ⟨r, hr.of_ext e, h⟩
theorem Btw.mul {lo hi l1 h1 l2 h2 : ℝ} {x y : F64} (hx : Btw l1 h1 x) (hy : Btw l2 h2 y) (kl : Keep lo) (kh : Keep hi)
    (h : ∀ r s, l1 ≤ r → r ≤ h1 → l2 ≤ s → s ≤ h2 → lo ≤ r * s ∧ r * s ≤ hi) : Btw lo hi (x * y) := by
  obtain ⟨r, hr, a, b⟩ := hx; obtain ⟨s, hs, c, d⟩ := hy
  obtain ⟨u, v⟩ := h r s a b c d
  exact (round_btw kl kh u v).of_ext (mul_fin_ext hr hs).symm
theorem Btw.div {lo hi l1 h1 l2 h2 : ℝ} {x y : F64} (hx : Btw l1 h1 x) (hy : Btw l2 h2 y) (h0 : 0 < l2) (kl : Keep lo) (kh : Keep hi)
    (h : ∀ r s, l1 ≤ r → r ≤ h1 → l2 ≤ s → s ≤ h2 → lo ≤ r / s ∧ r / s ≤ hi) : Btw lo hi (x / y) := by
  obtain ⟨r, hr, a, b⟩ := hx; obtain ⟨s, hs, c, d⟩ := hy
  obtain ⟨u, v⟩ := h r s a b c d
  exact (round_btw kl kh u v).of_ext (div_fin_ext hr hs (h0.trans_le c).ne').symm
theorem Btw.add {lo hi l1 h1 l2 h2 : ℝ} {x y : F64} (hx : Btw l1 h1 x) (hy : Btw l2 h2 y) (kl : Keep lo) (kh : Keep hi)
    (h : ∀ r s, l1 ≤ r → r ≤ h1 → l2 ≤ s → s ≤ h2 → lo ≤ r + s ∧ r + s ≤ hi) : Btw lo hi (x + y) := by
  obtain ⟨r, hr, a, b⟩ := hx; obtain ⟨s, hs, c, d⟩ := hy
  obtain ⟨u, v⟩ := h r s a b c d
  exact (round_btw kl kh u v).of_ext (add_ext hr hs).symm
theorem Btw.sub {lo hi l1 h1 l2 h2 : ℝ} {x y : F64} (hx : Btw l1 h1 x) (hy : Btw l2 h2 y) (kl : Keep lo) (kh : Keep hi)
    (h : ∀ r s, l1 ≤ r → r ≤ h1 → l2 ≤ s → s ≤ h2 → lo ≤ r - s ∧ r - s ≤ hi) : Btw lo hi (x - y) := by
  obtain ⟨s, hs, c, d⟩ := hy
  exact hx.add (y := -y) (l2 := -h2) (h2 := -l2) ⟨-s, hs.neg, by linarith, by linarith⟩ kl kh fun r t a b c' d' => by
    have := h r (-t) a b (by linarith) (by linarith)
    simpa using this
theorem Btw.num {x : F64} {r : ℝ} (h : x.Is r) : Btw r r x := ⟨r, h, le_rfl, le_rfl⟩
theorem Btw.pos {lo hi : ℝ} {x : F64} (h : Btw lo hi x) (h0 : 0 < lo) : ∃ r, x = fin r ∧ 0 < r ∧ lo ≤ r ∧ r ≤ hi := by
  obtain ⟨r, hr, a, b⟩ := h
  exact ⟨r, hr.eq_fin (h0.trans_le a).ne', h0.trans_le a, a, b⟩

theorem pi_btw : Btw 3 4 PI := by
  unfold PI
  exact round_btw (keep 3 0) (keep 4 0) (le_of_lt Real.pi_gt_three) Real.pi_le_four
theorem pi2_btw : Btw 9 16 PI2 :=
  pi_btw.mul pi_btw (keep 9 0) (keep 16 0) fun r s a b c d => by
    constructor <;> nlinarith
theorem third_btw : Btw (5 / 16) (3 / 8) ONE_THIRD :=
  (Btw.num Is.one).div (Btw.num (Is.num 3)) (by norm_num) (keep 5 4)
    (keep 3 3) fun r s a b c d => by
      have : r = 1 := le_antisymm b a
      have : s = 3 := le_antisymm d c
      subst r s; constructor <;> norm_num
end Rstat

namespace Rstat
open F64 Consts
variable [FP] [FP.Lawful]

theorem fin_pos {b : F64} (h : 0 < b) (hb : b.isFinite) : ∃ s, b = fin s ∧ 0 < s := by
  rcases pos_cases h with rfl | h
  · exact absurd hb (by simp)
  · exact h
theorem pi_btw' : Btw 3 (7 / 2) PI := by
  unfold PI
  exact round_btw (keep 3 0) (keep 7 1) (le_of_lt Real.pi_gt_three) (by linarith [Real.pi_lt_d2])

/-- a usize converts to a finite float, at least 1 if positive -/
theorem ofNat_fin {n : ℕ} (hn : n < 2 ^ 64) : ∃ r, (F64.ofNat n).Is r ∧ 0 ≤ r ∧ (0 < n → 1 ≤ r) := by
  have h0 : (0:ℝ) ≤ n := Nat.cast_nonneg n
  have hn' : (n:ℝ) ≤ 2 ^ 64 := by exact_mod_cast hn.le
  have hh : ¬ FP.huge (FP.rnd (n:ℝ)) := by
    apply FP.Lawful.not_huge
    have := FP.Lawful.rnd_err (n:ℝ)
    rw [abs_of_nonneg h0] at this
    have h1 : |FP.rnd (n:ℝ)| ≤ |FP.rnd (n:ℝ) - n| + n := by
      have := abs_sub_abs_le_abs_sub (FP.rnd (n:ℝ)) n
      rw [abs_of_nonneg h0] at this; linarith
    have h2 : (n:ℝ) / 2 ^ 53 ≤ n := div_le_self h0 (one_le_pow₀ (by norm_num))
    have h3 : (1:ℝ) / 2 ^ 1075 ≤ 1 := by rw [div_le_one (by positivity)]; exact one_le_pow₀ (by norm_num)
    have h4 : |FP.rnd (n:ℝ)| ≤ 2 ^ 66 := by
      calc |FP.rnd (n:ℝ)| ≤ n + 1 + n := by linarith
        _ ≤ 2 ^ 64 + 1 + 2 ^ 64 := by linarith
        _ ≤ 2 ^ 66 := by norm_num
    exact h4.trans (pow_le_pow_right₀ (by norm_num) (by norm_num))
  refine ⟨FP.rnd (n:ℝ), ?_, rnd_nonneg h0, fun h => ?_⟩
  · unfold F64.ofNat F64.round
    rw [if_neg hh]
    split
    · rename_i h; rw [h.1]; exact Is.negZero
    · exact Is.fin _
  · have : (1:ℝ) ≤ n := by exact_mod_cast h
    have := FP.Lawful.rnd_mono this
    rwa [rnd_one] at this
theorem ofNat_nn {n : ℕ} (hn : n < 2 ^ 64) : (0 : F64) ≤ F64.ofNat n := by
  obtain ⟨r, hr, h, _⟩ := ofNat_fin hn; exact nn_is hr h
theorem ofNat_pos {n : ℕ} (hn : n < 2 ^ 64) (h : 0 < n) : ∃ r, F64.ofNat n = fin r ∧ 1 ≤ r := by
  obtain ⟨r, hr, _, h1⟩ := ofNat_fin hn; exact ⟨r, hr.eq_fin (by linarith [h1 h]), h1 h⟩

/-- `a - k` for `a` above `k + c` -/
theorem sub_pos_fin {a k c : ℝ} {K : F64} (hK : K.Is k) (hc : Keep c) (h : k + c ≤ a) (hk : 0 ≤ k) (hc0 : 0 < c) (ha : Keep a) :
    ∃ r, fin a - K = fin r ∧ c ≤ r ∧ r ≤ a := by
  obtain ⟨r, hr, h1, h2⟩ := (Btw.num (Is.fin a)).sub (Btw.num hK) hc ha (fun x y p q u v => by
    constructor <;> linarith)
  exact ⟨r, hr.eq_fin (by linarith), h1, h2⟩
end Rstat
