import Verif.Float.Accuracy
import Verif.Lemmas.FloatErr
import Verif.Lemmas.FloatMono
import Verif.Lemmas.Traits
import Mathlib.Analysis.Calculus.MeanValue

/-! Forward error analysis of the location-scale distribution functions: the standardised argument is accurate up to a relative error, or
overflows on the right side; smooth saturating functions turn that into an absolute error. -/
set_option linter.unusedSectionVars false
namespace Rstat
open F64

/-- the computed standardised argument `a` of the exact value `z`: relative error 2^-51 (and 2^-120 for underflow), or an
infinity of the right sign when `|z|` exceeds 2^500 -/
def Zed (a : F64) (z : ℝ) : Prop :=
  (∃ Z, a.Is Z ∧ |Z - z| ≤ |z| / 2 ^ 51 + 1 / 2 ^ 120) ∨ (a = pinf ∧ 2 ^ 500 ≤ z) ∨ (a = ninf ∧ z ≤ -2 ^ 500)

theorem Zed.neg [FP] {a : F64} {z : ℝ} (h : Zed a z) : Zed (-a) (-z) := by
  rcases h with ⟨Z, h1, h2⟩ | ⟨rfl, h⟩ | ⟨rfl, h⟩
  · exact Or.inl ⟨-Z, h1.neg, by rw [abs_neg, show -Z - -z = -(Z - z) by ring, abs_neg]; exact h2⟩
  · exact Or.inr (Or.inr ⟨rfl, by linarith⟩)
  · exact Or.inr (Or.inl ⟨rfl, by linarith⟩)

/-- mean value theorem with a relative perturbation of the argument -/
theorem mvt_rel {g g' : ℝ → ℝ} {z Z C D : ℝ} (hg : ∀ x, HasDerivAt g (g' x) x)
    (h : |Z - z| ≤ |z| / 2 ^ 51 + 1 / 2 ^ 120) (hC : ∀ x ∈ Set.uIcc z Z, |x| * |g' x| ≤ C) (hD : ∀ x ∈ Set.uIcc z Z, |g' x| ≤ D) :
    |g Z - g z| ≤ C / 2 ^ 50 + D / 2 ^ 119 := by
  have hD0 : 0 ≤ D := (abs_nonneg _).trans (hD z Set.left_mem_uIcc)
  have hC0 : 0 ≤ C := le_trans (by positivity) (hC z Set.left_mem_uIcc)
  rcases eq_or_ne Z z with rfl | hne
  · rw [sub_self, abs_zero]; positivity
  have hδ : 0 < |Z - z| := abs_pos.2 (sub_ne_zero.2 hne)
  have key : ∀ x ∈ Set.uIcc z Z, ‖g' x‖ ≤ (C / 2 ^ 50 + D / 2 ^ 119) / |Z - z| := by
    intro x hx
    rw [le_div_iff₀ hδ, Real.norm_eq_abs]
    have hxz : |x - z| ≤ |Z - z| := Set.abs_sub_left_of_mem_uIcc hx
    have hz : |z| ≤ |x| + |x - z| := by
      have := abs_add_le x (z - x)
      rw [abs_sub_comm z x] at this
      rwa [add_sub_cancel] at this
    have hz2 : |z| ≤ 2 * |x| + 1 / 2 ^ 119 := by
      have h1 : |z| / 2 ^ 51 ≤ |z| / 2 := by gcongr; norm_num
      have h2 : (1:ℝ) / 2 ^ 119 = 2 * (1 / 2 ^ 120) := by norm_num
      linarith
    have h3 : |Z - z| ≤ |x| / 2 ^ 50 + 1 / 2 ^ 119 := by
      refine h.trans ?_
      have : |z| / 2 ^ 51 ≤ (2 * |x| + 1 / 2 ^ 119) / 2 ^ 51 := by gcongr
      refine (add_le_add_left this _).trans ?_
      rw [add_div]
      have e1 : 2 * |x| / 2 ^ 51 = |x| / 2 ^ 50 := by ring
      rw [e1, add_assoc]
      gcongr
      norm_num
    calc |g' x| * |Z - z| ≤ |g' x| * (|x| / 2 ^ 50 + 1 / 2 ^ 119) := by gcongr
      _ = (|x| * |g' x|) / 2 ^ 50 + |g' x| / 2 ^ 119 := by ring
      _ ≤ _ := by have := hC x hx; have := hD x hx; gcongr
  have := Convex.norm_image_sub_le_of_norm_hasDerivWithin_le (f := g) (f' := g') (s := Set.uIcc z Z) (x := z) (y := Z)
    (fun x _ => (hg x).hasDerivWithinAt) key (convex_uIcc z Z) Set.left_mem_uIcc Set.right_mem_uIcc
  rw [Real.norm_eq_abs, Real.norm_eq_abs, div_mul_cancel₀ _ hδ.ne'] at this
  exact this

section
variable [FP] [FP.Lawful]

theorem huge_big {x : ℝ} (h : FP.huge (FP.rnd x)) : 2 ^ 1022 ≤ |x| := by
  by_contra hc
  push Not at hc
  refine FP.Lawful.not_huge _ ?_ h
  have e := FP.Lawful.rnd_err x
  have h2 : |FP.rnd x| ≤ |FP.rnd x - x| + |x| := by
    have := abs_add_le (FP.rnd x - x) x; rwa [sub_add_cancel] at this
  have t := Within.tiny
  have p : (2:ℝ) ^ 1023 = 2 * 2 ^ 1022 := by rw [pow_succ, mul_comm]
  have p1 : (1:ℝ) ≤ 2 ^ 1022 := one_le_pow₀ (by norm_num)
  rw [p]
  generalize (2:ℝ) ^ 1022 = M at *
  generalize (1:ℝ) / 2 ^ 1075 = η at *
  have : |x| / 2 ^ 53 ≤ |x| / 4 := by gcongr; norm_num
  have h7 : (1:ℝ) / 2 ^ 120 ≤ 1 / 2 := by norm_num
  linarith only [this, h7, t, e, h2, hc, p1]

/-- every rounded value -/
theorem zed_of_ext {a : F64} {q : ℝ} (e : a.ext = (F64.round q).ext) : Zed a q := by
  by_cases hh : FP.huge (FP.rnd q)
  · have hb := huge_big hh
    have p : (2:ℝ) ^ 500 ≤ 2 ^ 1022 := pow_le_pow_right₀ (by norm_num) (by norm_num)
    have hb := p.trans hb
    have p0 : (0:ℝ) < 2 ^ 500 := by positivity
    unfold Zed
    generalize (2:ℝ) ^ 500 = M at hb p0 ⊢
    by_cases h0 : 0 < q
    · refine Or.inr (Or.inl ⟨?_, by rwa [abs_of_pos h0] at hb⟩)
      rw [F64.round, if_pos hh, if_pos h0] at e
      cases a <;> simp_all
    · refine Or.inr (Or.inr ⟨?_, by rw [abs_of_nonpos (not_lt.1 h0)] at hb; linarith only [hb]⟩)
      rw [F64.round, if_pos hh, if_neg h0] at e
      cases a <;> simp_all
  · left
    refine ⟨_, (round_is hh).of_ext e.symm, ?_⟩
    have e := FP.Lawful.rnd_err q
    have t := Within.tiny
    have : |q| / 2 ^ 53 ≤ |q| / 2 ^ 51 := by gcongr <;> norm_num
    generalize (1:ℝ) / 2 ^ 1075 = η at *
    linarith

variable [FP.Accurate] [FP.Libm]

/-- the standardised argument computed by every location-scale family -/
theorem zscore {x a b : F64} {r m s : ℝ} (hx : x.Is r) (ha : a.Is m) (hb : b.Is s) (hs : 0 < s)
    (hrr : FP.rnd r = r) (hmm : FP.rnd m = m) (nh : ¬ FP.huge (FP.rnd (r - m))) :
    Zed ((x - a) / b) ((r - m) / s) := by
  have acc := FP.Accurate.sub_acc r m hrr hmm
  have hD := sub_is hx ha nh
  set D := FP.rnd (r - m) with hDdef
  have hq : |D / s - (r - m) / s| ≤ |(r - m) / s| / 2 ^ 53 := by
    rw [← sub_div, abs_div, abs_div, abs_of_pos hs, div_right_comm]; gcongr
  set q := D / s with hqdef
  set z := (r - m) / s with hz
  have hqz : |q| ≤ |z| + |z| / 2 ^ 53 := by
    have := abs_add_le (q - z) z; rw [sub_add_cancel] at this; linarith
  by_cases hh : FP.huge (FP.rnd q)
  · have hb2 := huge_big hh
    have hzb : 2 ^ 501 ≤ |z| := by
      have p : (2:ℝ) ^ 522 = 2 ^ 21 * 2 ^ 501 := by rw [← pow_add]
      have p2 : (2:ℝ) ^ 522 ≤ 2 ^ 1022 := pow_le_pow_right₀ (by norm_num) (by norm_num)
      replace hb2 := p2.trans hb2
      rw [p] at hb2
      have p0 : (0:ℝ) < 2 ^ 501 := by positivity
      generalize (2:ℝ) ^ 501 = M at *
      have : |z| / 2 ^ 53 ≤ |z| := div_le_self (abs_nonneg _) (one_le_pow₀ (by norm_num))
      have h4 : 2 ^ 21 * M ≤ 2 * |z| := by linarith only [this, hb2, hqz]
      have h5 : 2 * M ≤ 2 ^ 21 * M := by gcongr; norm_num
      linarith only [h4, h5]
    have e := div_fin_ext hD hb hs.ne'
    rw [← hqdef] at e
    have p : (2:ℝ) ^ 501 = 2 * 2 ^ 500 := by rw [pow_succ, mul_comm]
    have p0 : (0:ℝ) < 2 ^ 500 := by positivity
    rw [p] at hzb
    clear_value z q D
    clear hb2 p
    unfold Zed
    generalize (2:ℝ) ^ 500 = M at hzb p0 ⊢
    have hz53 : |z| / 2 ^ 53 ≤ |z| / 2 := by gcongr; norm_num
    by_cases h0 : 0 < q
    · right; left
      constructor
      · rw [F64.round, if_pos hh, if_pos h0] at e
        cases h : (x - a) / b <;> rw [h] at e <;> simp_all
      · by_contra hc
        push Not at hc
        have hz0 : z < 0 := by
          rcases lt_or_ge z 0 with h | h
          · exact h
          · rw [abs_of_nonneg h] at hzb; linarith
        have := (abs_le.1 hq).2
        rw [abs_of_neg hz0] at this hz53
        linarith
    · right; right
      constructor
      · rw [F64.round, if_pos hh, if_neg h0] at e
        cases h : (x - a) / b <;> rw [h] at e <;> simp_all
      · by_contra hc
        push Not at hc
        have hz0 : 0 < z := by
          rcases lt_or_ge 0 z with h | h
          · exact h
          · rw [abs_of_nonpos h] at hzb; linarith
        have := (abs_le.1 hq).1
        rw [abs_of_pos hz0] at this hz53
        linarith
  · left
    refine ⟨_, div_is hD hb hs.ne' hh, ?_⟩
    have e := FP.Lawful.rnd_err q
    have t := Within.tiny
    have := abs_add_le (FP.rnd q - q) (q - z)
    rw [sub_add_sub_cancel] at this
    generalize (1:ℝ) / 2 ^ 1075 = η at *
    have h1 : |q| / 2 ^ 53 ≤ (|z| + |z| / 2 ^ 53) / 2 ^ 53 := by gcongr
    have h0 := abs_nonneg z
    have h2 : (|z| + |z| / 2 ^ 53) / 2 ^ 53 + |z| / 2 ^ 53 ≤ |z| / 2 ^ 51 := by
      generalize |z| = w at *; norm_num; linarith
    linarith

/-- no overflow of the difference of numbers below 2^1021 -/
theorem sub_no_overflow {r m : ℝ} (hr : |r| ≤ 2 ^ 1020) (hm : |m| ≤ 2 ^ 1020) : ¬ FP.huge (FP.rnd (r - m)) := by
  intro hh
  have h1 := huge_big hh
  have h2 := abs_sub r m
  have p : (2:ℝ) ^ 1022 = 4 * 2 ^ 1020 := by rw [show (1022:ℕ) = 2 + 1020 by norm_num, pow_add]; norm_num
  have p0 : (0:ℝ) < 2 ^ 1020 := by positivity
  rw [p] at h1
  clear p
  generalize (2:ℝ) ^ 1020 = M at *
  linarith

/-- rounding of a library result with relative error 2^-52 -/
theorem round_at {f t : ℝ} (p0 : 0 ≤ t) (acc : |f - t| ≤ t / 2 ^ 52) :
    (∃ E, (F64.round f).Is E ∧ 0 ≤ E ∧ |E - t| ≤ t / 2 ^ 51 + 1 / 2 ^ 120) ∨ (F64.round f = pinf ∧ 2 ^ 1021 ≤ t) := by
  have h52 : t / 2 ^ 52 ≤ t := div_le_self p0 (one_le_pow₀ (by norm_num))
  have f0 : 0 ≤ f := by have := (abs_le.1 acc).1; linarith
  have f1 : f ≤ t + t / 2 ^ 52 := by have := (abs_le.1 acc).2; linarith
  by_cases hh : FP.huge (FP.rnd f)
  · right
    have hb := huge_big hh
    rw [abs_of_nonneg f0] at hb
    have p : (2:ℝ) ^ 1022 = 2 * 2 ^ 1021 := by rw [pow_succ, mul_comm]
    have q : (0:ℝ) < 2 ^ 1021 := by positivity
    rw [p] at hb
    generalize (2:ℝ) ^ 1021 = M at *
    clear p
    refine ⟨?_, by linarith only [h52, hb, f1]⟩
    rw [F64.round, if_pos hh, if_pos]
    linarith only [hb, q]
  · left
    refine ⟨_, round_is hh, ?_, ?_⟩
    · have := FP.Lawful.rnd_mono f0; rwa [F64.rnd_zero] at this
    · have e := FP.Lawful.rnd_err f
      have tt := Within.tiny
      have := abs_add_le (FP.rnd f - f) (f - t)
      rw [sub_add_sub_cancel] at this
      generalize (1:ℝ) / 2 ^ 1075 = η at *
      rw [abs_of_nonneg f0] at e
      have h1 : f / 2 ^ 53 ≤ (t + t / 2 ^ 52) / 2 ^ 53 := by gcongr
      have h2 : (t + t / 2 ^ 52) / 2 ^ 53 + t / 2 ^ 52 ≤ t / 2 ^ 51 := by
        generalize t = w at *; norm_num; linarith
      linarith

/-- the exponential at a finite argument -/
theorem exp_at {a : F64} {Z : ℝ} (ha : a.Is Z) :
    (∃ E, a.exp.Is E ∧ 0 ≤ E ∧ |E - Real.exp Z| ≤ Real.exp Z / 2 ^ 51 + 1 / 2 ^ 120) ∨ (a.exp = pinf ∧ 2 ^ 1021 ≤ Real.exp Z) := by
  rw [exp_fin ha]
  exact round_at (Real.exp_pos Z).le (FP.Accurate.exp_acc Z)

/-- a power of a positive number -/
theorem pow_at {a e : F64} {r s : ℝ} (ha : a.Is r) (he : e.Is s) (hr : 0 < r) (hs : s ≠ 0) :
    (∃ P, (a.powf e).Is P ∧ 0 ≤ P ∧ |P - r ^ s| ≤ r ^ s / 2 ^ 51 + 1 / 2 ^ 120) ∨ (a.powf e = pinf ∧ 2 ^ 1021 ≤ r ^ s) := by
  rw [powf_pos_ext ha he hr hs]
  exact round_at (Real.rpow_pos_of_pos hr s).le (FP.Accurate.pow_acc r s hr)

end
end Rstat
