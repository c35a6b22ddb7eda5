import Verif.Lemmas.FloatRel4
import Verif.Spec.FloatPDF
import Verif.Props.FloatAccuracy

/-! C253: how far the computed densities are from the real ones, relative to the peak of the density. -/
set_option linter.unusedSectionVars false
namespace Rstat
open F64 Spec Consts

theorem Spec.Moderate.pos {s : ℝ} (h : Moderate s) : 0 < s := lt_of_lt_of_le (by positivity) h.1
theorem Spec.Moderate.lo {s : ℝ} (h : Moderate s) : 1 / 2 ^ 900 ≤ s :=
  le_trans (one_div_le_one_div_of_le (by positivity) (pow_le_pow_right₀ (by norm_num) (by norm_num))) h.1
theorem Spec.Moderate.hi {s : ℝ} (h : Moderate s) : s ≤ 2 ^ 900 := h.2.trans (pow_le_pow_right₀ (by norm_num) (by norm_num))
theorem Spec.Moderate.inv {s : ℝ} (h : Moderate s) : Moderate (1 / s) := by
  have p := h.pos
  obtain ⟨h1, h2⟩ := h
  refine ⟨one_div_le_one_div_of_le p h2, ?_⟩
  rw [div_le_iff₀ p]; rw [div_le_iff₀ (by positivity)] at h1; linarith

section
variable [FP] [FP.Lawful] [FP.Accurate] [FP.Libm]

/-- rounding with errors measured in units of a moderate scale -/
theorem round_scale {y k T δ : ℝ} (hk : Moderate k) (h : |y - k * T| ≤ k * δ) (hT : |T| ≤ 1) (hδ : δ ≤ 1) :
    Within (F64.round y) (k * T) (k * (δ + 1 / 2 ^ 51)) := by
  have kp := hk.pos
  have hkT : |k * T| ≤ k * 1 := by rw [abs_mul, abs_of_pos kp]; gcongr
  have hy : |y| ≤ 2 * k := by
    have := abs_add_le (y - k * T) (k * T)
    rw [sub_add_cancel] at this
    nlinarith
  obtain ⟨R, hR, hRe⟩ := round_near (hy.trans (scale_2 hk.hi))
  refine ⟨R, hR, ?_⟩
  have h3 := abs_sub_le R y (k * T)
  have h4 := tiny_scale hk.lo
  generalize (1:ℝ) / 2 ^ 1075 = τ at *
  linarith only [h3, h, hRe, hy, h4, kp]

/-- the standardised argument for a moderate scale: no condition on the argument -/
theorem zscore_all {x a b : F64} {r m s : ℝ} (hx : x.Is r) (ha : a.Is m) (hb : b.Is s) (hs : 0 < s) (s1 : s ≤ 2 ^ 501)
    (hrr : FP.rnd r = r) (hmm : FP.rnd m = m) : Zed ((x - a) / b) ((r - m) / s) := by
  by_cases hr : FP.huge (FP.rnd (r - m))
  · have hw := huge_big hr
    have key : 2 ^ 500 ≤ |r - m| / s := by
      rw [le_div_iff₀ hs]
      calc (2:ℝ) ^ 500 * s ≤ 2 ^ 500 * 2 ^ 501 := by gcongr
        _ ≤ 2 ^ 1022 := by rw [← pow_add]; exact pow_le_pow_right₀ (by norm_num) (by norm_num)
        _ ≤ |r - m| := hw
    have e := add_ext hx ha.neg
    rw [← sub_eq_add_neg, F64.round, if_pos hr] at e
    rw [hb.eq_fin hs.ne']
    by_cases h0 : 0 < r - m
    · right; left
      rw [if_pos h0] at e
      have e2 : x - a = pinf := by
        change x + -a = pinf
        cases h : x + -a <;> rw [h] at e <;> simp_all
      rw [e2, pinf_div_const hs]
      rw [abs_of_pos h0] at key
      exact ⟨rfl, key⟩
    · right; right
      rw [if_neg h0] at e
      have e2 : x - a = ninf := by
        change x + -a = ninf
        cases h : x + -a <;> rw [h] at e <;> simp_all
      rw [e2, ninf_div_const hs]
      rw [abs_of_nonpos (not_lt.1 h0), neg_div] at key
      exact ⟨rfl, by generalize (2:ℝ) ^ 500 = M at *; linarith only [key]⟩
  · exact zscore hx ha hb hs hrr hmm hr

/-- C253: the exponential density is within λ·2^-48 of the real one at every non-negative f64 -/
theorem C253_exponential {a : F64} {l : ℝ} {d : Exponential} (h : Exponential.new a = .ok d) (ha : a.Is l) (hl : Moderate l) :
    AccuratePDF d.pdf (expPDF l) (Set.Ici 0) (l * (1 / 2 ^ 48)) := by
  obtain ⟨h0, rfl⟩ := Exponential.new_ok.1 h
  intro x r _ hx hr
  have hr : 0 ≤ r := hr
  have lp := hl.pos
  have ht : 0 ≤ l * r := by positivity
  have e := mul_fin_ext ha.neg hx
  rw [neg_mul] at e
  have hw := zed_expneg ht (zed_of_ext e) (fun Z hZ => by
    have h1 : F64.round (-(l * r)) ≤ F64.round 0 := round_mono (by linarith)
    exact (hZ.le_iff round_zero_is).1 (le_congr e.symm rfl h1))
  have e1 : Real.exp (-(l * r)) ≤ 1 := Real.exp_le_one_iff.2 (by linarith)
  have := hw.mul_scale (by rwa [abs_of_pos (Real.exp_pos _)]) (by norm_num) ha hl.lo hl.hi
  rw [expPDF, if_pos hr]
  exact this.mono (by gcongr; norm_num)

/-- C253: the Cauchy density is within 2^-46/γ of the real one at every f64 -/
theorem C253_cauchy {a b : F64} {m s : ℝ} {d : Cauchy} (h : Cauchy.new a b = .ok d) (fa : IsF64 a) (ha : a.Is m)
    (hb : b.Is s) (hs : Moderate s) : AccuratePDF d.pdf (cauchyDensity m s) Set.univ (1 / s * (1 / 2 ^ 46)) := by
  obtain ⟨h0, rfl⟩ := Cauchy.new_ok.1 h
  intro x r fx hx _
  have sp := hs.pos
  have s501 : s ≤ 2 ^ 501 := hs.2.trans (pow_le_pow_right₀ (by norm_num) (by norm_num))
  have hz := zscore_all hx ha hb sp s501 (fx r hx).1 (fa m ha).1
  set z := (r - m) / s
  have e : cauchyDensity m s r = 1 / s * (1 / Real.pi * (1 / (1 + z ^ 2))) := by
    change 1 / (Real.pi * s * (1 + z ^ 2)) = _
    have := Real.pi_pos
    have q : 0 < 1 + z ^ 2 := by positivity
    generalize 1 + z ^ 2 = Q at *
    field_simp
  have h3 := Real.pi_gt_three
  have i3 : 1 / Real.pi ≤ 1 / 3 := one_div_le_one_div_of_le (by norm_num) h3.le
  have i0 : 0 < 1 / Real.pi := by positivity
  have hB := one_over_pi_within.div_scale (by rw [abs_of_pos i0]; linarith) (by norm_num) hb hs.lo hs.hi
  rw [e]
  obtain ⟨y, hy, hye⟩ := hB
  have hks : ∀ c : ℝ, c / s = 1 / s * c := fun c => by ring
  rw [hks (1 / Real.pi), hks (1 / 2 ^ 51 + 1 / 2 ^ 51)] at hye
  have kp := hs.inv.pos
  set k := 1 / s
  have hl1 : 1 / (1 + z ^ 2) ≤ 1 := by rw [div_le_one (by positivity)]; have := sq_nonneg z; linarith
  have hl0 : 0 < 1 / (1 + z ^ 2) := by positivity
  change Within (1 / PI / b / (1 + (x - a) / b * ((x - a) / b))) _ _
  change (1 / PI / b).Is y at hy
  rcases zed_sq1 hz with ⟨W, hW, hW1, hWe⟩ | ⟨hi, hsm⟩
  · have hWp : 0 < W := by linarith
    have hW2 : 1 / W ≤ 2 := by rw [div_le_iff₀ hWp]; linarith
    have hr := round_scale (y := y / W) (T := 1 / Real.pi * (1 / (1 + z ^ 2))) (δ := 1 / 2 ^ 49 + 1 / 2 ^ 48) hs.inv (by
      have e2 : y / W - k * (1 / Real.pi * (1 / (1 + z ^ 2))) = (y - k * (1 / Real.pi)) * (1 / W) + k * (1 / Real.pi) * (1 / W - 1 / (1 + z ^ 2)) := by
        ring
      rw [e2]
      refine (abs_add_le _ _).trans ?_
      rw [abs_mul, abs_mul (k * (1 / Real.pi)), abs_of_pos (by positivity : 0 < 1 / W), abs_of_pos (by positivity : 0 < k * (1 / Real.pi))]
      have t1 : |y - k * (1 / Real.pi)| * (1 / W) ≤ (k * (1 / 2 ^ 51 + 1 / 2 ^ 51)) * 2 :=
        mul_le_mul hye hW2 (by positivity) (by positivity)
      have t2 : k * (1 / Real.pi) * |1 / W - 1 / (1 + z ^ 2)| ≤ k * (1 / 3) * (1 / 2 ^ 47) := by gcongr
      linarith only [t1, t2, kp]) (by
      rw [abs_of_pos (by positivity)]; nlinarith) (by norm_num)
    obtain ⟨R, hR, hRe⟩ := hr
    refine ⟨R, hR.of_ext (div_fin_ext hy hW hWp.ne').symm, hRe.trans ?_⟩
    gcongr; norm_num
  · rw [hi]
    refine ⟨0, const_div_pinf hy, ?_⟩
    rw [zero_sub, abs_neg, abs_of_pos (by positivity)]
    gcongr
    nlinarith

/-- C253 (part): the Gumbel density is within 2^-45/β of the real one as long as the standardised argument does not overflow downwards
(see `C253_gumbel_violated`) -/
theorem C253_gumbel_partial {a b : F64} {m s : ℝ} {d : Gumbel} (h : Gumbel.new a b = .ok d) (fa : IsF64 a) (ha : a.Is m)
    (hb : b.Is s) (hs : Moderate s) : AccuratePDF d.pdf (gumbelPDF m s) {r | (m - r) / s < 2 ^ 500} (1 / s * (1 / 2 ^ 45)) := by
  obtain ⟨h0, rfl⟩ := Gumbel.new_ok.1 h
  intro x r fx hx hr
  have hr : (m - r) / s < 2 ^ 500 := hr
  have sp := hs.pos
  have s501 : s ≤ 2 ^ 501 := hs.2.trans (pow_le_pow_right₀ (by norm_num) (by norm_num))
  have hz := (zscore_all hx ha hb sp s501 (fx r hx).1 (fa m ha).1).neg
  rw [show -((r - m) / s) = -(r - m) / s by ring] at hz
  have hn : -((x - a) / b) ≠ pinf := by
    intro hc
    rw [hc] at hz
    rcases hz with ⟨Z, hZ, -⟩ | ⟨-, hv⟩ | ⟨hc, -⟩
    · rcases hZ with h | ⟨h, -⟩ <;> cases h
    · rw [neg_sub] at hv
      exact absurd hr (not_lt.2 hv)
    · cases hc
  have hw := zed_gumbel hz hn
  set v := -(r - m) / s
  have e1 : Real.exp (v - Real.exp v) ≤ 1 := Real.exp_le_one_iff.2 (by linarith [Real.add_one_le_exp v])
  have := hw.div_scale (by rwa [abs_of_pos (Real.exp_pos _)]) (by norm_num) hb hs.lo hs.hi
  have e : gumbelPDF m s r = Real.exp (v - Real.exp v) / s := by rw [gmb_split]; rfl
  rw [e]
  refine this.mono ?_
  rw [div_eq_mul_one_div, mul_comm]
  have := hs.inv.pos
  gcongr; norm_num

/-- the logistic density of an argument of moderate size: `e/s/(1+e)/(1+e)` -/
theorem logistic_term {a b : F64} {E s : ℝ} (ha : a.Is E) (h0 : 0 ≤ E) (h1 : E ≤ 2 ^ 500) (hb : b.Is s) (hs : Moderate s) :
    Within (a / b / (1 + a) / (1 + a)) (1 / s * (1 / (1 + E) - 1 / (1 + E) ^ 2)) (1 / s * (1 / 2 ^ 47)) := by
  have sp := hs.pos
  have hk := hs.inv
  have kp := hk.pos
  -- the sum
  obtain ⟨W, hW, hWe⟩ := round_near (y := 1 + E) (by
    rw [abs_of_nonneg (by linarith)]
    have p1 : (1:ℝ) ≤ 2 ^ 500 := one_le_pow₀ (by norm_num)
    have p2 : (2:ℝ) * 2 ^ 500 ≤ 2 ^ 1020 := by rw [← pow_succ']; exact pow_le_pow_right₀ (by norm_num) (by norm_num)
    generalize (2:ℝ) ^ 500 = M at *
    generalize (2:ℝ) ^ 1020 = N at *
    linarith only [p1, p2, h1])
  have hWI := hW.of_ext (add_ext Is.one ha).symm
  rw [abs_of_nonneg (by linarith : 0 ≤ 1 + E)] at hWe
  have ti := Within.tiny
  obtain ⟨hW1, hWr⟩ := rel_inv (W := W) (u := 1 + E) (η := 1 / 2 ^ 52) (by linarith) (by norm_num) (by
    generalize (1:ℝ) / 2 ^ 1075 = τ at *
    linarith only [hWe, ti, h0])
  have Wp : 0 < W := by linarith
  -- the first quotient
  have hE : |E / s| ≤ 2 ^ 1020 := by
    rw [abs_of_nonneg (by positivity), div_eq_mul_one_div]
    calc E * (1 / s) ≤ 2 ^ 500 * 2 ^ 500 := by have := hk.2; gcongr
      _ ≤ 2 ^ 1020 := by rw [← pow_add]; exact pow_le_pow_right₀ (by norm_num) (by norm_num)
  obtain ⟨Q, hQ, hQe⟩ := round_near hE
  have hQI := hQ.of_ext (div_fin_ext ha hb sp.ne').symm
  have t2 := tiny_scale hk.lo
  rw [abs_of_nonneg (by positivity : 0 ≤ E / s), show E / s = 1 / s * E by ring] at hQe
  set k := 1 / s
  set u := 1 / (1 + E) with hu
  have u0 : 0 < u := by positivity
  have u1 : u ≤ 1 := by rw [hu, div_le_one (by linarith)]; linarith
  have Eu : E * u = 1 - u := by rw [hu]; field_simp; ring
  have W2 : 1 / W ≤ 2 * u := by
    rw [hu, mul_one_div, div_le_div_iff₀ Wp (by linarith)]; linarith
  have iW : 0 < 1 / W := by positivity
  -- divide once
  have s1 := round_scale (y := Q / W) (T := 1 - u) (δ := 1 / 2 ^ 50) hk (by
    rw [← Eu, show Q / W - k * (E * u) = (Q - k * E) * (1 / W) + k * E * (1 / W - u) by ring]
    refine (abs_add_le _ _).trans ?_
    rw [abs_mul, abs_mul (k * E), abs_of_pos iW, abs_of_nonneg (by positivity : 0 ≤ k * E)]
    have a1 : |Q - k * E| * (1 / W) ≤ (k * E / 2 ^ 53 + k / 2 ^ 120) * (2 * u) :=
      mul_le_mul (by generalize (1:ℝ) / 2 ^ 1075 = τ at hQe t2; linarith only [hQe, t2]) W2 iW.le (by positivity)
    have a2 : k * E * |1 / W - u| ≤ k * E * (2 * (1 / 2 ^ 52) * u) := by gcongr
    have a3 : (k * E / 2 ^ 53 + k / 2 ^ 120) * (2 * u) = k * (E * u) * (2 / 2 ^ 53) + k * u * (2 / 2 ^ 120) := by ring
    have a4 : k * E * (2 * (1 / 2 ^ 52) * u) = k * (E * u) * (2 / 2 ^ 52) := by ring
    rw [a3] at a1
    rw [a4] at a2
    rw [Eu] at a1 a2
    have a5 : k * (1 - u) ≤ k := by nlinarith
    have a6 : k * u ≤ k := by nlinarith
    linarith only [a1, a2, a5, a6, kp]) (by rw [abs_le]; constructor <;> linarith) (by norm_num)
  obtain ⟨R, hR, hRe⟩ := s1
  have hRI := hR.of_ext (div_fin_ext hQI hWI Wp.ne').symm
  -- divide again
  have s2 := round_scale (y := R / W) (T := (1 - u) * u) (δ := 1 / 2 ^ 48) hk (by
    rw [show R / W - k * ((1 - u) * u) = (R - k * (1 - u)) * (1 / W) + k * (1 - u) * (1 / W - u) by ring]
    refine (abs_add_le _ _).trans ?_
    rw [abs_mul, abs_mul (k * (1 - u)), abs_of_pos iW, abs_of_nonneg (by apply mul_nonneg <;> linarith : 0 ≤ k * (1 - u))]
    have a1 : |R - k * (1 - u)| * (1 / W) ≤ (k * (1 / 2 ^ 50 + 1 / 2 ^ 51)) * (2 * 1) :=
      mul_le_mul hRe (W2.trans (by linarith)) iW.le (by positivity)
    have a2 : k * (1 - u) * |1 / W - u| ≤ k * 1 * (2 * (1 / 2 ^ 52) * 1) := by
      have : 1 - u ≤ 1 := by linarith
      have : 0 ≤ 1 - u := by linarith
      have : |1 / W - u| ≤ 2 * (1 / 2 ^ 52) * 1 := hWr.trans (by gcongr)
      gcongr
    linarith only [a1, a2, kp]) (by rw [abs_of_nonneg (by nlinarith)]; nlinarith) (by norm_num)
  obtain ⟨R2, hR2, hR2e⟩ := s2
  refine ⟨R2, hR2.of_ext (div_fin_ext hRI hWI Wp.ne').symm, ?_⟩
  rw [show 1 / (1 + E) ^ 2 = u ^ 2 by rw [hu, div_pow, one_pow], show u - u ^ 2 = (1 - u) * u by ring]
  exact hR2e.trans (mul_le_mul_of_nonneg_left (by norm_num) kp.le)

theorem exp_300 : Real.exp 301 ≤ 2 ^ 499 := by
  have h := Real.exp_one_lt_d9
  have e : Real.exp 301 = Real.exp 1 ^ 301 := by rw [← Real.exp_nat_mul]; norm_num
  rw [e]
  have h2 : Real.exp 1 ^ 2 ≤ 2 ^ 3 := by nlinarith [Real.exp_pos 1]
  calc Real.exp 1 ^ 301 = (Real.exp 1 ^ 2) ^ 150 * Real.exp 1 := by ring
    _ ≤ (2 ^ 3) ^ 150 * 3 := by gcongr; linarith
    _ ≤ (2 ^ 3) ^ 150 * 2 ^ 2 := by gcongr; norm_num
    _ = 2 ^ 452 := by rw [← pow_mul, ← pow_add]
    _ ≤ 2 ^ 499 := pow_le_pow_right₀ (by norm_num) (by norm_num)

/-- C253 (part): the logistic density is within 2^-45/s of the real one down to 300 scales below the location
(see `C253_logistic_violated`) -/
theorem C253_logistic_partial {a b : F64} {m s : ℝ} {d : Logistic} (h : Logistic.new a b = .ok d) (fa : IsF64 a) (ha : a.Is m)
    (hb : b.Is s) (hs : Moderate s) : AccuratePDF d.pdf (logisticPDF m s) {r | (m - r) / s ≤ 300} (1 / s * (1 / 2 ^ 45)) := by
  obtain ⟨h0, rfl⟩ := Logistic.new_ok.1 h
  intro x r fx hx hr
  have hr : (m - r) / s ≤ 300 := hr
  have sp := hs.pos
  have kp := hs.inv.pos
  have s501 : s ≤ 2 ^ 501 := hs.2.trans (pow_le_pow_right₀ (by norm_num) (by norm_num))
  have hz := (zscore_all hx ha hb sp s501 (fx r hx).1 (fa m ha).1).neg
  rw [show -((r - m) / s) = -(r - m) / s by ring] at hz
  rw [show (m - r) / s = -(r - m) / s by ring] at hr
  have ev : logisticPDF m s r = 1 / s * (1 / (1 + Real.exp (-(r - m) / s)) - 1 / (1 + Real.exp (-(r - m) / s)) ^ 2) := by
    unfold logisticPDF
    have := Real.exp_pos (-(r - m) / s)
    field_simp
    ring
  rw [ev]
  set v := -(r - m) / s
  have p := Real.exp_pos v
  change Within ((-((x - a) / b)).exp / b / (1 + (-((x - a) / b)).exp) / (1 + (-((x - a) / b)).exp)) _ _
  generalize -((x - a) / b) = c at *
  have sq : ∀ {g g' δ : ℝ}, 0 ≤ g → g ≤ 1 → 0 ≤ g' → g' ≤ 1 → |g - g'| ≤ δ → |1 / s * (g - g ^ 2) - 1 / s * (g' - g' ^ 2)| ≤ 1 / s * δ := by
    intro g g' δ a1 a2 a3 a4 h
    rw [show 1 / s * (g - g ^ 2) - 1 / s * (g' - g' ^ 2) = 1 / s * ((g - g') * (1 - (g + g'))) by ring, abs_mul, abs_of_pos kp, abs_mul]
    have h5 : |1 - (g + g')| ≤ 1 := by rw [abs_le]; constructor <;> linarith
    have h6 : |g - g'| * |1 - (g + g')| ≤ |g - g'| * 1 := by gcongr
    gcongr; linarith
  have pw : ∀ y : ℝ, 1 / (1 + y) ^ 2 = (1 / (1 + y)) ^ 2 := fun y => by rw [div_pow, one_pow]
  have unit : ∀ {y : ℝ}, 0 ≤ y → 0 ≤ 1 / (1 + y) ∧ 1 / (1 + y) ≤ 1 := fun hy => ⟨by positivity, by rw [div_le_one (by linarith)]; linarith⟩
  rcases hz with ⟨V, hV, hVe⟩ | ⟨rfl, hv⟩ | ⟨rfl, hv⟩
  · have hm := mvt_rel inv1_deriv hVe (fun x _ => inv1_C x) (fun x _ => inv1_D x)
    have V1 : V ≤ 301 ∨ V ≤ v := by
      have h2 := (abs_le.1 hVe).2
      rcases le_total 0 v with h | h
      · left; rw [abs_of_nonneg h] at h2; linarith only [h2, hr]
      · left; rw [abs_of_nonpos h] at h2; linarith only [h2, hr, h, (abs_le.1 hVe).2]
    have V1 : V ≤ 301 := V1.elim id (fun h => by linarith)
    have eV : Real.exp V ≤ 2 ^ 499 := (Real.exp_le_exp.2 V1).trans exp_300
    have pV := Real.exp_pos V
    rcases exp_at hV with ⟨E, hE, E0, hEe⟩ | ⟨-, hb⟩
    · have E1 : E ≤ 2 ^ 500 := by
        have := (abs_le.1 hEe).2
        have p1 : (1:ℝ) ≤ 2 ^ 499 := one_le_pow₀ (by norm_num)
        have p2 : (2:ℝ) ^ 500 = 2 * 2 ^ 499 := by rw [pow_succ, mul_comm]
        rw [p2]
        clear p2
        generalize (2:ℝ) ^ 499 = M at *
        linarith only [this, eV, p1]
      have hw := logistic_term hE E0 E1 hb hs
      rw [pw] at hw
      rw [pw]
      have d1 : |1 / (1 + E) - 1 / (1 + Real.exp V)| ≤ 1 / 2 ^ 50 := by
        rw [div_sub_div _ _ (by linarith) (by linarith), abs_div, abs_of_pos (show 0 < (1 + E) * (1 + Real.exp V) by positivity),
          div_le_iff₀ (by positivity), show 1 * (1 + Real.exp V) - (1 + E) * 1 = -(E - Real.exp V) by ring, abs_neg]
        have : 1 + Real.exp V ≤ (1 + E) * (1 + Real.exp V) := by nlinarith
        linarith only [hEe, this, pV]
      have d2 := sq (unit E0).1 (unit E0).2 (unit p.le).1 (unit p.le).2 (δ := 1 / 2 ^ 50 + (1 / 2 ^ 50 + 1 / 2 ^ 119))
        ((abs_sub_le _ _ _).trans (add_le_add d1 hm))
      refine hw.shift ?_
      have hk : 1 / s * (1 / 2 ^ 50 + (1 / 2 ^ 50 + 1 / 2 ^ 119)) + 1 / s * (1 / 2 ^ 47) ≤ 1 / s * (1 / 2 ^ 45) := by
        rw [← mul_add]; gcongr; norm_num
      linarith only [d2, hk]
    · exfalso
      have : (2:ℝ) ^ 499 < 2 ^ 1021 := pow_lt_pow_right₀ (by norm_num) (by norm_num)
      exact absurd (hb.trans eV) (not_le.2 this)
  · exfalso
    have : (300:ℝ) < 2 ^ 500 := by
      calc (300:ℝ) < 2 ^ 9 := by norm_num
        _ ≤ 2 ^ 500 := pow_le_pow_right₀ (by norm_num) (by norm_num)
    exact absurd (hv.trans hr) (not_le.2 this)
  · have h1 := exp_neg_small (M := -v) (by generalize (2:ℝ) ^ 500 = M at *; linarith)
    rw [neg_neg] at h1
    have hw := logistic_term (a := ninf.exp) (E := 0) (Is.fin 0) le_rfl (by positivity) hb hs
    rw [pw] at hw
    rw [pw]
    have d2 := sq (g := 1 / (1 + 0)) (by norm_num) (by norm_num) (unit p.le).1 (unit p.le).2 (δ := 1 / 2 ^ 120) (by
      rw [add_zero, div_one, one_sub_div (by positivity), add_sub_cancel_left, abs_of_pos (by positivity)]
      refine le_trans (div_le_self p.le (by linarith)) h1)
    refine hw.shift ?_
    have hk : 1 / s * (1 / 2 ^ 120) + 1 / s * (1 / 2 ^ 47) ≤ 1 / s * (1 / 2 ^ 45) := by
      rw [← mul_add]; gcongr; norm_num
    linarith only [d2, hk]
end
end Rstat
