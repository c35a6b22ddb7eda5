import Verif.Lemmas.FloatRel
import Verif.Lemmas.Gaussian

/-! Error bounds of the saturating functions used by the distribution functions at an inexact standardised argument. -/
set_option linter.unusedSectionVars false
namespace Rstat
open F64

theorem big_inv {M : ℝ} (h : 2 ^ 500 ≤ M) : 0 < M ∧ 1 / M ≤ 1 / 2 ^ 120 := by
  have h0 : (0:ℝ) < 2 ^ 500 := by positivity
  have p : (2:ℝ) ^ 120 ≤ 2 ^ 500 := pow_le_pow_right₀ (by norm_num) (by norm_num)
  exact ⟨h0.trans_le h, one_div_le_one_div_of_le (by positivity) (p.trans h)⟩

theorem exp_neg_le_inv {M : ℝ} (h : 0 < M) : Real.exp (-M) ≤ 1 / M := by
  rw [Real.exp_neg, ← one_div]
  exact one_div_le_one_div_of_le h (by linarith [Real.add_one_le_exp M])

/-- `exp (-M)` is negligible for huge `M` -/
theorem exp_neg_small {M : ℝ} (h : 2 ^ 500 ≤ M) : Real.exp (-M) ≤ 1 / 2 ^ 120 :=
  (exp_neg_le_inv (big_inv h).1).trans (big_inv h).2
theorem big_exp {M : ℝ} (h : 2 ^ 500 ≤ M) : 2 ^ 500 ≤ Real.exp M := h.trans (by linarith [Real.add_one_le_exp M])

theorem p1021 : (2:ℝ) ^ 500 ≤ 2 ^ 1021 := pow_le_pow_right₀ (by norm_num) (by norm_num)

/-! ### derivatives -/
theorem inv1_deriv (x : ℝ) : HasDerivAt (fun v : ℝ => 1 / (1 + Real.exp v)) (-(Real.exp x) / (1 + Real.exp x) ^ 2) x := by
  have h := ((Real.hasDerivAt_exp x).const_add 1).inv (by positivity)
  have e : (fun v : ℝ => 1 / (1 + Real.exp v)) = (fun v => 1 + Real.exp v)⁻¹ := by funext v; simp [one_div]
  rw [e]; exact h

theorem abs_mul_exp_neg (x : ℝ) (_ : 0 ≤ x) : x * Real.exp (-x) ≤ 1 := by
  rw [Real.exp_neg, ← div_eq_mul_inv, div_le_one (Real.exp_pos _)]
  linarith [Real.add_one_le_exp x]

theorem inv1_C (x : ℝ) : |x| * |(-(Real.exp x) / (1 + Real.exp x) ^ 2)| ≤ 1 := by
  have p := Real.exp_pos x
  rw [abs_div, abs_neg, abs_of_pos p, abs_of_pos (show 0 < (1 + Real.exp x) ^ 2 by positivity), ← mul_div_assoc, div_le_one (by positivity)]
  rcases le_total 0 x with h | h
  · rw [abs_of_nonneg h]
    have := Real.add_one_le_exp x
    nlinarith
  · rw [abs_of_nonpos h]
    have := abs_mul_exp_neg (-x) (by linarith)
    rw [neg_neg] at this
    nlinarith

theorem inv1_D (x : ℝ) : |(-(Real.exp x) / (1 + Real.exp x) ^ 2)| ≤ 1 := by
  have p := Real.exp_pos x
  rw [abs_div, abs_neg, abs_of_pos p, abs_of_pos (by positivity), div_le_one (by positivity)]
  nlinarith

theorem dexp_deriv (x : ℝ) : HasDerivAt (fun v : ℝ => Real.exp (-Real.exp v)) (Real.exp (-Real.exp x) * -Real.exp x) x :=
  ((Real.hasDerivAt_exp x).neg).exp

theorem sq_le_exp {t : ℝ} (h : 0 ≤ t) : t ^ 2 ≤ Real.exp t := by
  have h1 := Real.quadratic_le_exp_of_nonneg (x := t / 2) (by linarith)
  have h2 : Real.exp t = Real.exp (t / 2) ^ 2 := by rw [← Real.exp_nat_mul]; congr 1; push_cast; ring
  rw [h2]
  exact pow_le_pow_left₀ h (by nlinarith [sq_nonneg (t / 2 - 1)]) 2

theorem mul_exp_neg_le {t : ℝ} (h : 0 ≤ t) : t ^ 2 * Real.exp (-t) ≤ 1 := by
  rw [Real.exp_neg, ← div_eq_mul_inv, div_le_one (Real.exp_pos _)]; exact sq_le_exp h

theorem dexp_C (x : ℝ) : |x| * |Real.exp (-Real.exp x) * -Real.exp x| ≤ 1 := by
  have p := Real.exp_pos x
  rw [abs_mul, abs_neg, abs_of_pos p, abs_of_pos (Real.exp_pos _)]
  set t := Real.exp x
  have q := Real.exp_pos (-t)
  rcases le_total 0 x with h | h
  · rw [abs_of_nonneg h]
    have h1 : x ≤ t := by linarith [Real.add_one_le_exp x]
    calc x * (Real.exp (-t) * t) ≤ t * (Real.exp (-t) * t) := by gcongr
      _ = t ^ 2 * Real.exp (-t) := by ring
      _ ≤ 1 := mul_exp_neg_le p.le
  · rw [abs_of_nonpos h]
    have h1 := abs_mul_exp_neg (-x) (by linarith)
    rw [neg_neg] at h1
    have h2 : Real.exp (-t) ≤ 1 := Real.exp_le_one_iff.2 (by linarith)
    have h3 : 0 ≤ -x * t := mul_nonneg (by linarith) p.le
    calc -x * (Real.exp (-t) * t) = (-x * t) * Real.exp (-t) := by ring
      _ ≤ 1 * 1 := by gcongr
      _ = 1 := one_mul 1

theorem dexp_D (x : ℝ) : |Real.exp (-Real.exp x) * -Real.exp x| ≤ 1 := by
  rw [abs_mul, abs_neg, abs_of_pos (Real.exp_pos _), abs_of_pos (Real.exp_pos _), mul_comm]
  exact abs_mul_exp_neg _ (Real.exp_pos x).le

theorem expneg_deriv (x : ℝ) : HasDerivAt (fun v : ℝ => Real.exp (-v)) (-Real.exp (-x)) x := by
  simpa using (hasDerivAt_neg x).exp

/-- perturbation of `exp (-t)` on the positive axis -/
theorem expneg_pert {t T : ℝ} (ht : 0 ≤ t) (hT : 0 ≤ T) (h : |T - t| ≤ |t| / 2 ^ 51 + 1 / 2 ^ 120) :
    |Real.exp (-T) - Real.exp (-t)| ≤ 1 / 2 ^ 50 + 1 / 2 ^ 119 := by
  have pos : ∀ x ∈ Set.uIcc t T, 0 ≤ x := fun x hx => le_trans (le_min ht hT) hx.1
  refine mvt_rel (g := fun v => Real.exp (-v)) expneg_deriv h (fun x hx => ?_) (fun x hx => ?_)
  · rw [abs_neg, abs_of_pos (Real.exp_pos _), abs_of_nonneg (pos x hx)]; exact abs_mul_exp_neg x (pos x hx)
  · rw [abs_neg, abs_of_pos (Real.exp_pos _)]; exact Real.exp_le_one_iff.2 (by linarith [pos x hx])

theorem atan_C (x : ℝ) : |x| * |1 / (1 + x ^ 2)| ≤ 1 := by
  rw [abs_of_pos (show 0 < 1 / (1 + x ^ 2) by positivity), mul_one_div, div_le_one (by positivity)]
  have := sq_abs x
  nlinarith [sq_nonneg (|x| - 1)]
theorem atan_D (x : ℝ) : |1 / (1 + x ^ 2)| ≤ 1 := by
  rw [abs_of_pos (by positivity), div_le_one (by positivity)]; nlinarith [sq_nonneg x]

/-- the arctangent is saturated at huge arguments -/
theorem arctan_big {M : ℝ} (h : 2 ^ 500 ≤ M) : |Real.pi / 2 - Real.arctan M| ≤ 1 / 2 ^ 120 := by
  obtain ⟨h0, h1⟩ := big_inv h
  have h2 := Real.arctan_inv_of_pos h0
  have h3 : Real.arctan M⁻¹ ≤ M⁻¹ := by
    have := Real.le_tan (x := Real.arctan M⁻¹) (Real.arctan_nonneg.2 (by positivity)) (Real.arctan_lt_pi_div_two _)
    rwa [Real.tan_arctan] at this
  have h4 := Real.arctan_lt_pi_div_two M
  rw [abs_of_pos (by linarith), ← h2]
  rw [one_div] at h1
  linarith

theorem phi_C (x : ℝ) : |x| * |Real.exp (-x ^ 2 / 2) / √(2 * Real.pi)| ≤ 1 := by
  have hs : 1 ≤ √(2 * Real.pi) := Real.one_le_sqrt.2 (by linarith [Real.pi_gt_three])
  rw [abs_div, abs_of_pos (Real.exp_pos _), abs_of_pos (show 0 < √(2 * Real.pi) by linarith), ← mul_div_assoc, div_le_one (by linarith)]
  refine le_trans ?_ hs
  rw [show -x ^ 2 / 2 = -(x ^ 2 / 2) by ring, Real.exp_neg, ← div_eq_mul_inv, div_le_one (Real.exp_pos _)]
  have h1 := Real.add_one_le_exp (x ^ 2 / 2)
  have := sq_abs x
  nlinarith [sq_nonneg (|x| - 1)]
theorem phi_D (x : ℝ) : |Real.exp (-x ^ 2 / 2) / √(2 * Real.pi)| ≤ 1 := by
  have hs : 1 ≤ √(2 * Real.pi) := Real.one_le_sqrt.2 (by linarith [Real.pi_gt_three])
  rw [abs_div, abs_of_pos (Real.exp_pos _), abs_of_pos (by linarith), div_le_one (by linarith)]
  exact (Real.exp_le_one_iff.2 (by nlinarith [sq_nonneg x])).trans hs

theorem phi_tail {t : ℝ} (ht : t < 0) : Spec.Phi t ≤ -1 / t := by
  have hd : ∀ x ∈ Set.Iio (0:ℝ), HasDerivAt (fun x => -1 / x - Spec.Phi x) (1 / x ^ 2 - Real.exp (-x ^ 2 / 2) / √(2 * Real.pi)) x := by
    intro x hx
    have h1 : HasDerivAt (fun x : ℝ => -1 / x) (1 / x ^ 2) x := by
      have := (hasDerivAt_inv (x := x) (ne_of_lt hx)).neg
      have e1 : (fun x : ℝ => -1 / x) = -(fun y : ℝ => y⁻¹) := by funext y; simp [neg_div]
      have e2 : 1 / x ^ 2 = - -(x ^ 2)⁻¹ := by rw [neg_neg, one_div]
      rw [e1, e2]; exact this
    exact h1.sub (Spec.Phi_hasDerivAt x)
  have hmono : MonotoneOn (fun x => -1 / x - Spec.Phi x) (Set.Iio 0) := by
    refine monotoneOn_of_deriv_nonneg (convex_Iio 0) (fun x hx => (hd x hx).continuousAt.continuousWithinAt) ?_ ?_
    · intro x hx; rw [interior_Iio] at hx; exact (hd x hx).differentiableAt.differentiableWithinAt
    · intro x hx
      rw [interior_Iio] at hx
      rw [(hd x hx).deriv, sub_nonneg]
      have hs : 1 ≤ √(2 * Real.pi) := Real.one_le_sqrt.2 (by linarith [Real.pi_gt_three])
      have x2 : 0 < x ^ 2 := by have : x ≠ 0 := ne_of_lt hx; positivity
      calc Real.exp (-x ^ 2 / 2) / √(2 * Real.pi) ≤ Real.exp (-x ^ 2 / 2) := div_le_self (Real.exp_pos _).le hs
        _ ≤ 1 / x ^ 2 := by
          rw [show -x ^ 2 / 2 = -(x ^ 2 / 2) by ring, Real.exp_neg, ← one_div]
          refine one_div_le_one_div_of_le x2 ?_
          have := Real.quadratic_le_exp_of_nonneg (x := x ^ 2 / 2) (by positivity)
          nlinarith [sq_nonneg (x ^ 2 / 2 - 1)]
  have hlim : Filter.Tendsto (fun x : ℝ => -1 / x - Spec.Phi x) Filter.atBot (nhds 0) := by
    have h1 : Filter.Tendsto (fun x : ℝ => -1 / x) Filter.atBot (nhds 0) := Filter.Tendsto.div_atBot tendsto_const_nhds Filter.tendsto_id
    simpa using h1.sub Spec.Phi_tendsto_bot
  have h5 : (0:ℝ) ≤ -1 / t - Spec.Phi t := by
    refine le_of_tendsto hlim ?_
    filter_upwards [Filter.eventually_le_atBot t] with x hx
    exact hmono (lt_of_le_of_lt hx ht) ht hx
  linarith

theorem phi_small {M : ℝ} (h : 2 ^ 500 ≤ M) : Spec.Phi (-M) ≤ 1 / 2 ^ 120 := by
  obtain ⟨h0, h1⟩ := big_inv h
  refine (phi_tail (by linarith only [h0])).trans ?_
  rwa [neg_div_neg_eq]

section
variable [FP] [FP.Lawful]

/-- `1 / (1 + a)` -/
theorem recip1 {a : F64} {E : ℝ} (ha : a.Is E) (hE : 0 ≤ E) : Within ((1 : F64) / (1 + a)) (1 / (1 + E)) (1 / 2 ^ 51) := by
  by_cases hh : FP.huge (FP.rnd (1 + E))
  · have e := add_ext Is.one ha
    rw [F64.round, if_pos hh, if_pos (by linarith)] at e
    have e2 : (1 : F64) + a = pinf := by cases h : (1 : F64) + a <;> rw [h] at e <;> simp_all
    rw [e2]
    have hb := huge_big hh
    rw [abs_of_pos (by linarith)] at hb
    refine ⟨0, const_div_pinf Is.one, ?_⟩
    obtain ⟨h0, h1⟩ := big_inv (le_trans (pow_le_pow_right₀ (by norm_num) (by norm_num)) hb)
    rw [zero_sub, abs_neg, abs_of_pos (by positivity)]
    exact h1.trans (by norm_num)
  · have hs := add_is Is.one ha hh
    set t := 1 + E
    have t1 : 1 ≤ t := by simp only [t]; linarith
    have e := FP.Lawful.rnd_err t
    have s1 : 1 ≤ FP.rnd t := by have := FP.Lawful.rnd_mono t1; rwa [F64.rnd_one] at this
    have tt := Within.tiny
    set s := FP.rnd t
    have hd := Within.div_exact (ρ := 1 / 2 ^ 53 + 1 / 2 ^ 120) 1 Is.one hs (by linarith : s ≠ 0)
      (by rw [abs_of_pos (by positivity), div_le_one (by linarith)]; exact s1) (by norm_num) (by norm_num)
    refine hd.shift (s := 1 / s) ?_
    have e3 : |1 / s - 1 / t| ≤ 1 / 2 ^ 53 + 1 / 2 ^ 120 := by
      rw [div_sub_div _ _ (by linarith) (by linarith), abs_div, abs_of_pos (show 0 < s * t by positivity), one_mul, mul_one,
        div_le_iff₀ (by positivity), abs_sub_comm]
      rw [abs_of_pos (by linarith : 0 < t)] at e
      generalize (1:ℝ) / 2 ^ 1075 = η at *
      have h1 : (1 / 2 ^ 53 + 1 / 2 ^ 120) * t ≤ (1 / 2 ^ 53 + 1 / 2 ^ 120) * (s * t) := by
        gcongr; exact le_mul_of_one_le_left (by linarith) s1
      have h2 : (1:ℝ) / 2 ^ 120 * 1 ≤ 1 / 2 ^ 120 * t := by gcongr
      linarith
    refine (add_le_add_left e3 _).trans (by norm_num)

variable [FP.Accurate] [FP.Libm]

/-- the logistic function of an inexact argument -/
theorem zed_logistic {a : F64} {v : ℝ} (h : Zed a v) : Within ((1 : F64) / (1 + a.exp)) (1 / (1 + Real.exp v)) (1 / 2 ^ 47) := by
  rcases h with ⟨V, hV, hz⟩ | ⟨rfl, hv⟩ | ⟨rfl, hv⟩
  · have hm := mvt_rel (g := fun v : ℝ => 1 / (1 + Real.exp v)) inv1_deriv hz (fun x _ => inv1_C x) (fun x _ => inv1_D x)
    have p := Real.exp_pos V
    rcases exp_at hV with ⟨E, hE, h0, hE2⟩ | ⟨hi, hb⟩
    · refine (recip1 hE h0).shift (δ := 1 / 2 ^ 47) ?_
      have h1 : |1 / (1 + E) - 1 / (1 + Real.exp V)| ≤ 1 / 2 ^ 51 + 1 / 2 ^ 120 := by
        set T := Real.exp V
        rw [div_sub_div _ _ (by positivity) (by positivity), abs_div, abs_of_pos (show 0 < (1 + E) * (1 + T) by positivity), one_mul, mul_one,
          div_le_iff₀ (by positivity), show 1 + T - (1 + E) = -(E - T) by ring, abs_neg]
        refine hE2.trans ?_
        have h2 : (1 / 2 ^ 51 + 1 / 2 ^ 120) * (1 * (1 + T)) ≤ (1 / 2 ^ 51 + 1 / 2 ^ 120) * ((1 + E) * (1 + T)) := by
          gcongr; linarith
        have : (0:ℝ) ≤ 1 / 2 ^ 120 * T := by positivity
        linarith
      have h3 := abs_sub_le (1 / (1 + E)) (1 / (1 + Real.exp V)) (1 / (1 + Real.exp v))
      generalize |1 / (1 + E) - 1 / (1 + Real.exp v)| = A at *
      generalize |1 / (1 + E) - 1 / (1 + Real.exp V)| = B at *
      generalize |1 / (1 + Real.exp V) - 1 / (1 + Real.exp v)| = C at *
      norm_num at *; linarith
    · rw [hi, fin_add_pinf Is.one]
      refine ⟨0, const_div_pinf Is.one, ?_⟩
      obtain ⟨h0, h1⟩ := big_inv (p1021.trans hb)
      have h2 : 1 / (1 + Real.exp V) ≤ 1 / 2 ^ 120 := le_trans (one_div_le_one_div_of_le h0 (by linarith)) h1
      have h3 : 0 ≤ 1 / (1 + Real.exp V) := by positivity
      have h4 := abs_sub_le 0 (1 / (1 + Real.exp V)) (1 / (1 + Real.exp v))
      rw [zero_sub (1 / (1 + Real.exp V)), abs_neg, abs_of_nonneg h3] at h4
      generalize |0 - 1 / (1 + Real.exp v)| = A at *
      generalize 1 / (1 + Real.exp V) = B at *
      generalize |B - 1 / (1 + Real.exp v)| = C at *
      norm_num at *; linarith
  · change Within (1 / (1 + pinf)) _ _
    rw [fin_add_pinf Is.one]
    refine ⟨0, const_div_pinf Is.one, ?_⟩
    obtain ⟨h0, h1⟩ := big_inv (big_exp hv)
    rw [zero_sub, abs_neg, abs_of_pos (by positivity)]
    refine (one_div_le_one_div_of_le h0 (by linarith)).trans (h1.trans (by norm_num))
  · refine (recip1 (Is.fin 0) le_rfl).shift ?_
    have h1 := exp_neg_small (M := -v) (by generalize (2:ℝ) ^ 500 = M at *; linarith)
    rw [neg_neg] at h1
    have p := Real.exp_pos v
    have h2 : |1 / (1 + 0) - 1 / (1 + Real.exp v)| ≤ 1 / 2 ^ 120 := by
      rw [add_zero, div_one, one_sub_div (by positivity), add_sub_cancel_left, abs_of_pos (by positivity), div_le_iff₀ (by positivity)]
      have : (0:ℝ) ≤ 1 / 2 ^ 120 * Real.exp v := by positivity
      linarith
    refine (add_le_add_left h2 _).trans (by norm_num)

/-- `exp` of a non-positive inexact argument -/
theorem zed_expneg {a : F64} {t : ℝ} (ht : 0 ≤ t) (h : Zed a (-t)) (hn : ∀ Z, a.Is Z → Z ≤ 0) :
    Within a.exp (Real.exp (-t)) (1 / 2 ^ 49) := by
  rcases h with ⟨Z, hZ, hz⟩ | ⟨rfl, hv⟩ | ⟨rfl, hv⟩
  · have hZ0 := hn Z hZ
    have hm := expneg_pert (t := t) (T := -Z) ht (by linarith) (by
      rw [abs_neg] at hz; rw [show -Z - t = -(Z - -t) by ring, abs_neg]; exact hz)
    rw [neg_neg] at hm
    have e1 : Real.exp Z ≤ 1 := Real.exp_le_one_iff.2 hZ0
    rcases exp_at hZ with ⟨E, hE, h0, hE2⟩ | ⟨hi, hb⟩
    · refine ⟨E, hE, ?_⟩
      have h3 := abs_sub_le E (Real.exp Z) (Real.exp (-t))
      have h4 : Real.exp Z / 2 ^ 51 ≤ 1 / 2 ^ 51 := by gcongr
      generalize |E - Real.exp (-t)| = A at *
      generalize |E - Real.exp Z| = B at *
      generalize |Real.exp Z - Real.exp (-t)| = C at *
      generalize Real.exp Z / 2 ^ 51 = D at *
      norm_num at *; linarith
    · exfalso
      have : (1:ℝ) < 2 ^ 1021 := one_lt_pow₀ (by norm_num) (by norm_num)
      exact absurd (hb.trans e1) (not_le.2 this)
  · exfalso
    have : (0:ℝ) < 2 ^ 500 := by positivity
    generalize (2:ℝ) ^ 500 = M at *
    linarith
  · change Within (fin 0) _ _
    refine ⟨0, Is.fin 0, ?_⟩
    have h1 := exp_neg_small (M := t) (by generalize (2:ℝ) ^ 500 = M at *; linarith)
    rw [zero_sub, abs_neg, abs_of_pos (Real.exp_pos _)]
    exact h1.trans (by norm_num)

/-- the double exponential of an inexact argument -/
theorem zed_dexp {a : F64} {v : ℝ} (h : Zed a v) : Within ((-a.exp).exp) (Real.exp (-Real.exp v)) (1 / 2 ^ 47) := by
  rcases h with ⟨V, hV, hz⟩ | ⟨rfl, hv⟩ | ⟨rfl, hv⟩
  · have hm := mvt_rel (g := fun v : ℝ => Real.exp (-Real.exp v)) dexp_deriv hz (fun x _ => dexp_C x) (fun x _ => dexp_D x)
    have p := Real.exp_pos V
    have hw : Within ((-a.exp).exp) (Real.exp (-Real.exp V)) (1 / 2 ^ 49) := by
      rcases exp_at hV with ⟨E, hE, h0, hE2⟩ | ⟨hi, hb⟩
      · refine zed_expneg p.le (Or.inl ⟨-E, hE.neg, ?_⟩) (fun Z hZ => by rw [← hE.neg.eq hZ]; linarith)
        rw [abs_neg, abs_of_pos p, show -E - -Real.exp V = -(E - Real.exp V) by ring, abs_neg]; exact hE2
      · rw [hi]
        refine ⟨0, Is.fin 0, ?_⟩
        rw [zero_sub, abs_neg, abs_of_pos (Real.exp_pos _)]
        exact (exp_neg_small (p1021.trans hb)).trans (by norm_num)
    refine hw.shift ?_
    refine (add_le_add_left hm _).trans (by norm_num)
  · refine ⟨0, Is.fin 0, ?_⟩
    rw [zero_sub, abs_neg, abs_of_pos (Real.exp_pos _)]
    exact (exp_neg_small (big_exp hv)).trans (by norm_num)
  · have h1 := exp_neg_small (M := -v) (by generalize (2:ℝ) ^ 500 = M at *; linarith)
    rw [neg_neg] at h1
    change Within ((-(fin 0)).exp) _ _
    rw [exp_zero ((Is.fin 0).neg.congr neg_zero)]
    refine ⟨1, Is.fin 1, ?_⟩
    have h2 := Real.one_sub_le_exp_neg (Real.exp v)
    have h3 : Real.exp (-Real.exp v) ≤ 1 := Real.exp_le_one_iff.2 (by linarith [Real.exp_pos v])
    rw [abs_of_nonneg (by linarith)]
    have : (1:ℝ) / 2 ^ 120 ≤ 1 / 2 ^ 47 := by norm_num
    linarith

/-- the arctangent of an inexact argument -/
theorem zed_atan {a : F64} {z : ℝ} (h : Zed a z) : Within a.atan (Real.arctan z) (1 / 2 ^ 49) := by
  have piW : ∀ {x : ℝ}, |x| ≤ 2 → Within (F64.round x) x (1 / 2 ^ 51) := fun hx =>
    Within.round (ε := 0) (by simp) hx (by norm_num) (by norm_num)
  have hpi : |Real.pi / 2| ≤ 2 := by rw [abs_of_pos (by positivity)]; linarith [Real.pi_le_four]
  rcases h with ⟨Z, hZ, hz⟩ | ⟨rfl, hv⟩ | ⟨rfl, hv⟩
  · have hm := mvt_rel Real.hasDerivAt_arctan hz (fun x _ => atan_C x) (fun x _ => atan_D x)
    have b1 : |Real.arctan Z| ≤ 2 := by
      rw [abs_le]
      have := Real.arctan_lt_pi_div_two Z; have := Real.neg_pi_div_two_lt_arctan Z; have := Real.pi_le_four
      constructor <;> linarith
    have hw : Within a.atan (Real.arctan Z) (7 / 2 ^ 53) := by
      have acc := FP.Accurate.atan_acc Z
      have h4 : |Real.arctan Z| / 2 ^ 52 ≤ 2 / 2 ^ 52 := by gcongr
      rcases hZ with rfl | ⟨rfl, rfl⟩
      · exact Within.round (acc.trans h4) b1 (by norm_num) (by norm_num)
      · rw [Real.arctan_zero]; exact ⟨0, Is.negZero, by norm_num⟩
    refine hw.shift ?_
    refine (add_le_add_left hm _).trans (by norm_num)
  · refine (piW hpi).shift ?_
    exact (add_le_add_left (arctan_big hv) _).trans (by norm_num)
  · refine (piW (x := -(Real.pi / 2)) (by rw [abs_neg]; exact hpi)).shift ?_
    have := arctan_big (M := -z) (by generalize (2:ℝ) ^ 500 = M at *; linarith)
    rw [Real.arctan_neg, sub_neg_eq_add, ← abs_neg, neg_add] at this
    rw [sub_eq_add_neg]
    exact (add_le_add_left this _).trans (by norm_num)

variable [FP.SpecialFns]

/-- the normal distribution function of an inexact argument -/
theorem zed_norm {a : F64} {z : ℝ} (h : Zed a z) : Within (F64.norm a) (Spec.Phi z) (1 / 2 ^ 48 + 1 / 2 ^ 49) := by
  rcases h with ⟨Z, hZ, hz⟩ | ⟨rfl, hv⟩ | ⟨rfl, hv⟩
  · have hm := mvt_rel Spec.Phi_hasDerivAt hz (fun x _ => phi_C x) (fun x _ => phi_D x)
    obtain ⟨p, hp, hp2⟩ := FP.Accurate.norm_acc hZ
    refine ⟨p, hp, ?_⟩
    have := abs_sub_le p (Spec.Phi Z) (Spec.Phi z)
    generalize |p - Spec.Phi z| = A at *
    generalize |p - Spec.Phi Z| = B at *
    generalize |Spec.Phi Z - Spec.Phi z| = C at *
    norm_num at *; linarith
  · refine ⟨1, FP.SpecialFns.norm_top, ?_⟩
    have h1 := phi_small hv
    rw [Spec.Phi_neg] at h1
    have := (Spec.Phi_mem z).2
    rw [abs_of_pos (by linarith)]
    exact h1.trans (by norm_num)
  · refine ⟨0, FP.SpecialFns.norm_bot, ?_⟩
    have h1 := phi_small (M := -z) (by generalize (2:ℝ) ^ 500 = M at *; linarith)
    rw [neg_neg] at h1
    rw [zero_sub, abs_neg, abs_of_pos (Spec.Phi_mem z).1]
    exact h1.trans (by norm_num)

end
end Rstat
