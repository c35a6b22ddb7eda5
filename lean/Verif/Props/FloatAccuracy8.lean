import Verif.Props.FloatAccuracy7
import Verif.Props.Dist.Cosine
import Verif.Props.Dist.Arcsine
import Verif.Float.AccurateTrig

/-! C270: the raised cosine and arcsine distribution functions in floating point. -/
set_option linter.unusedSectionVars false
namespace Rstat
open F64 Spec Consts

/-- two angles of the first quadrant are close when the squares of their sines are -/
theorem angle_close {x y e : ℝ} (x0 : 0 ≤ x) (x1 : x ≤ Real.pi / 2) (y0 : 0 ≤ y) (y1 : y ≤ Real.pi / 2)
    (e0 : 0 ≤ e) (h : |Real.sin x ^ 2 - Real.sin y ^ 2| ≤ e ^ 2) : |x - y| ≤ Real.pi / 2 * e := by
  wlog hxy : y ≤ x generalizing x y
  · rw [abs_sub_comm]; exact this y0 y1 x0 x1 (by rwa [abs_sub_comm]) (le_of_not_ge hxy)
  rw [abs_of_nonneg (by linarith)]
  have pp := Real.pi_pos
  have k1 : Real.sin (x - y) ≤ Real.sin (x + y) := by
    rcases le_total (x + y) (Real.pi / 2) with h1 | h1
    · exact Real.sin_le_sin_of_le_of_le_pi_div_two (by linarith) h1 (by linarith)
    · rw [← Real.sin_pi_sub (x + y)]
      exact Real.sin_le_sin_of_le_of_le_pi_div_two (by linarith) (by linarith) (by linarith)
  have k0 : 0 ≤ Real.sin (x - y) := Real.sin_nonneg_of_nonneg_of_le_pi (by linarith) (by linarith)
  have k2 : Real.sin (x - y) * Real.sin (x + y) = Real.sin x ^ 2 - Real.sin y ^ 2 := by
    rw [Real.sin_sub, Real.sin_add]
    have a1 := Real.sin_sq_add_cos_sq x
    have a2 := Real.sin_sq_add_cos_sq y
    have b1 : Real.cos x ^ 2 = 1 - Real.sin x ^ 2 := by linarith
    have b2 : Real.cos y ^ 2 = 1 - Real.sin y ^ 2 := by linarith
    calc _ = Real.sin x ^ 2 * Real.cos y ^ 2 - Real.cos x ^ 2 * Real.sin y ^ 2 := by ring
      _ = _ := by rw [b1, b2]; ring
  have k3 : Real.sin (x - y) ^ 2 ≤ e ^ 2 := by
    have := (le_abs_self _).trans h
    nlinarith
  have k4 : Real.sin (x - y) ≤ e := (abs_le.1 (abs_le_of_sq_le_sq k3 e0)).2
  have k5 := Real.mul_le_sin (x := x - y) (by linarith) (by linarith)
  have k6 : 2 / Real.pi * (x - y) ≤ e := k5.trans k4
  rw [div_mul_eq_mul_div, div_le_iff₀ pp] at k6
  linarith

section
variable [FP] [FP.Lawful] [FP.Libm] [FP.Accurate] [FP.AccurateTrig]

/-- the sine of a computed angle -/
theorem Within.sin {a : F64} {t ε ρ : ℝ} (h : Within a t ε) (hr : ε + 1 / 2 ^ 50 ≤ ρ) (e1 : ε ≤ 1) : Within a.sin (Real.sin t) ρ := by
  obtain ⟨y, hy, he⟩ := h
  have acc := FP.AccurateTrig.sin_acc y
  have lip : |Real.sin y - Real.sin t| ≤ ε := (Real.abs_sin_sub_sin_le _ _).trans he
  have tot : |FP.fsin y - Real.sin t| ≤ ε + 1 / 2 ^ 52 := by
    have := abs_add_le (FP.fsin y - Real.sin y) (Real.sin y - Real.sin t)
    rw [sub_add_sub_cancel] at this; linarith
  have key : Within (F64.round (FP.fsin y)) (Real.sin t) ρ := by
    refine Within.round tot (Real.abs_sin_le_one t) ?_ ?_
    · linarith
    · linarith
  rcases hy with rfl | ⟨rfl, rfl⟩
  · exact key
  · change Within (if FP.fsin 0 = 0 then negZero else F64.round (FP.fsin 0)) _ _
    split_ifs with h0
    · refine ⟨0, Is.negZero, ?_⟩
      rw [h0] at tot
      refine tot.trans (le_trans ?_ hr)
      linarith [show (1:ℝ) / 2 ^ 52 ≤ 1 / 2 ^ 50 by norm_num]
    · exact key

theorem Within.asin {a : F64} {y t ε : ℝ} (hy : a.Is y) (y0 : 0 ≤ y) (y1 : y ≤ 1) (h : |Real.arcsin y - t| ≤ ε) (e1 : ε ≤ 1) :
    Within a.asin t (ε + 1 / 2 ^ 49) := by
  have acc := FP.AccurateTrig.asin_acc y (by linarith) y1
  have ab : |Real.arcsin y| ≤ 2 := by
    have := Real.arcsin_le_pi_div_two y; have := Real.neg_pi_div_two_le_arcsin y; have := Real.pi_le_four
    rw [abs_le]; constructor <;> linarith
  have tb : |t| ≤ 3 := by
    have := abs_sub_abs_le_abs_sub t (Real.arcsin y)
    rw [abs_sub_comm] at this; linarith
  have tot : |FP.fasin y - t| ≤ ε + 2 / 2 ^ 52 := by
    have := abs_add_le (FP.fasin y - Real.arcsin y) (Real.arcsin y - t)
    rw [sub_add_sub_cancel] at this
    have h3 : |Real.arcsin y| / 2 ^ 52 ≤ 2 / 2 ^ 52 := by gcongr
    linarith
  have e0 := (abs_nonneg _).trans h
  rcases hy with rfl | ⟨rfl, rfl⟩
  · change Within (if y < -1 ∨ 1 < y then nan else F64.round (FP.fasin y)) _ _
    rw [if_neg (by push Not; exact ⟨by linarith, y1⟩)]
    refine Within.round tot tb ?_ ?_ <;> linarith
  · rw [Real.arcsin_zero] at h
    exact ⟨0, Is.negZero, h.trans (by linarith [show (0:ℝ) ≤ 1 / 2 ^ 49 by positivity])⟩

/-- C270 (part): the raised cosine distribution function is within 2^-48 of the real one at every f64 of the support -/
theorem C270_cosine_partial {a b : F64} {m s : ℝ} {d : Cosine} (h : Cosine.new a b = .ok d) (fa : IsF64 a) (ha : a.Is m)
    (fb : IsF64 b) (hb : b.Is s) : AccurateCDF d.cdf (cosineCDF m s) (Set.Icc (m - s) (m + s)) (1 / 2 ^ 48) := by
  obtain ⟨h0, rfl⟩ := Cosine.new_ok.1 h
  have sp := pos_of_lt h0 hb
  intro x r fx hx hr
  have hlo : -s ≤ r - m := by linarith [hr.1]
  have hhi : r - m ≤ s := by linarith [hr.2]
  have nh : ¬ FP.huge (FP.rnd (r - m)) := by
    refine fun hh => (fb s hb).2 (FP.Lawful.huge_mono _ s ?_ hh)
    have g1 := FP.Lawful.rnd_mono hlo
    have g2 := FP.Lawful.rnd_mono hhi
    rw [FP.Lawful.rnd_neg, (fb s hb).1] at g1
    rw [(fb s hb).1] at g2
    rw [abs_of_pos sp, abs_le]
    exact ⟨g1, g2⟩
  have hz := zscore hx ha hb sp (fx r hx).1 (fa m ha).1 nh
  have z1 : |(r - m) / s| ≤ 1 := by
    rw [abs_div, abs_of_pos sp, div_le_one sp, abs_le]; exact ⟨hlo, hhi⟩
  change Within (fin (1 / 2) * (1 + (x - a) / b + ONE_OVER_PI * ((x - a) / b * PI).sin)) _ _
  have hG : cosineCDF m s r = 1 / 2 * (1 + (r - m) / s + 1 / Real.pi * Real.sin ((r - m) / s * Real.pi)) := by
    rw [cosineCDF, if_neg (not_lt.2 hr.1)]
    split_ifs with h
    · have e : r = m + s := le_antisymm hr.2 h
      have e2 : (r - m) / s = 1 := by rw [e]; field_simp; ring
      rw [e2, one_mul, Real.sin_pi]; norm_num
    · rw [mul_comm ((r - m) / s) Real.pi]; ring
  rw [hG]
  generalize (r - m) / s = z at hz z1 ⊢
  generalize (x - a) / b = Z at hz ⊢
  have wz : Within Z z (1 / 2 ^ 50) := by
    rcases hz with ⟨y, h1, h2⟩ | ⟨-, h2⟩ | ⟨-, h2⟩
    · refine ⟨y, h1, h2.trans ?_⟩
      have : |z| / 2 ^ 51 ≤ 1 / 2 ^ 51 := by gcongr
      linarith [show (1:ℝ) / 2 ^ 51 + 1 / 2 ^ 120 ≤ 1 / 2 ^ 50 by norm_num]
    · have h5 := one_lt_pow₀ (M₀ := ℝ) (by norm_num : (1:ℝ) < 2) (n := 500) (by norm_num)
      exact absurd (h5.trans_le (h2.trans (abs_le.1 z1).2)) (lt_irrefl _)
    · have h5 := one_lt_pow₀ (M₀ := ℝ) (by norm_num : (1:ℝ) < 2) (n := 500) (by norm_num)
      exact absurd (h5.trans_le (le_neg.1 h2 |>.trans (neg_le.1 (abs_le.1 z1).1))) (lt_irrefl _)
  have h3 := Real.pi_gt_three
  have h4 := Real.pi_le_four
  have wpi : Within PI Real.pi (5 / 2 ^ 53) :=
    Within.round (ε := 0) (M := 4) (by simp) (by rw [abs_of_pos (by linarith)]; exact h4) (by norm_num) (by norm_num)
  have w1 := Within.mul (ρ := 3 / 2 ^ 49) 1 4 wz wpi z1 (by rw [abs_of_pos (by linarith)]; exact h4) (by norm_num) (by norm_num)
  have w2 := Within.sin (ρ := 7 / 2 ^ 50) w1 (by norm_num) (by norm_num)
  have b2 : |1 / Real.pi| ≤ 1 / 3 := by
    rw [abs_of_pos (by positivity)]; exact one_div_le_one_div_of_le (by norm_num) h3.le
  have w3 := Within.mul (ρ := 3 / 2 ^ 50) (1 / 3) 1 one_over_pi_within w2 b2 (Real.abs_sin_le_one _) (by norm_num) (by norm_num)
  have w4 := Within.add (ρ := 3 / 2 ^ 51) 2 (Within.exact Is.one) wz (by rw [abs_le] at z1 ⊢; constructor <;> linarith [z1.1, z1.2]) (by norm_num) (by norm_num)
  have b5 : |1 + z + 1 / Real.pi * Real.sin (z * Real.pi)| ≤ 3 := by
    have e1 := abs_add_le (1 + z) (1 / Real.pi * Real.sin (z * Real.pi))
    have e2 : |1 / Real.pi * Real.sin (z * Real.pi)| ≤ 1 / 3 * 1 := by
      rw [abs_mul]; exact mul_le_mul b2 (Real.abs_sin_le_one _) (abs_nonneg _) (by norm_num)
    have e3 : |1 + z| ≤ 2 := by rw [abs_le] at z1 ⊢; constructor <;> linarith [z1.1, z1.2]
    linarith
  have w5 := Within.add (ρ := 5 / 2 ^ 50) 3 w4 w3 b5 (by norm_num) (by norm_num)
  exact Within.mul (1 / 2) 3 (Within.exact (Is.fin (1 / 2))) w5 (by rw [abs_of_pos] <;> norm_num) b5 (by norm_num) (by norm_num)

theorem two_over_pi_within : Within TWO_OVER_PI (2 / Real.pi) (1 / 2 ^ 50) := by
  have h3 := Real.pi_gt_three
  have h4 := Real.pi_le_four
  obtain ⟨P, hP, hPe⟩ : Within PI Real.pi (5 / 2 ^ 53) :=
    Within.round (ε := 0) (M := 4) (by simp) (by rw [abs_of_pos (by linarith)]; exact h4) (by norm_num) (by norm_num)
  have hP3 : 2 ≤ P := by
    have := (abs_le.1 hPe).1
    have : (5:ℝ) / 2 ^ 53 ≤ 1 := by norm_num
    linarith
  have hd := Within.div_exact (ρ := 1 / 2 ^ 52) 1 (Is.num 2) hP (by linarith : P ≠ 0)
    (by rw [abs_of_pos (by positivity), div_le_one (by linarith)]; exact hP3) (by norm_num) (by norm_num)
  refine hd.shift ?_
  have e3 : |2 / P - 2 / Real.pi| ≤ 10 / 2 ^ 53 / 6 := by
    rw [div_sub_div _ _ (by linarith) (by linarith), abs_div, abs_of_pos (show 0 < P * Real.pi by positivity),
      show 2 * Real.pi - P * 2 = 2 * (Real.pi - P) by ring, abs_mul, abs_sub_comm, abs_of_pos (show (0:ℝ) < 2 by norm_num)]
    exact div_le_div₀ (by norm_num) (by linarith) (by norm_num) (by nlinarith)
  exact (add_le_add_left e3 _).trans (by norm_num)

/-- C270 (part): the arcsine distribution function is within 2^-25 of the real one at every f64 of the support (half the digits: near the
upper end the arcsine of a square root multiplies the rounding error of `x - a` by its slope, which is unbounded) -/
theorem C270_arcsine_partial {a b : F64} {m s : ℝ} {d : Arcsine} (h : Arcsine.new a b = .ok d) (fa : IsF64 a) (ha : a.Is m)
    (fb : IsF64 b) (hb : b.Is s) : AccurateCDF d.cdf (arcsineCDF m (m + s)) (Set.Icc m (m + s)) (1 / 2 ^ 25) := by
  obtain ⟨h0, rfl⟩ := Arcsine.new_ok.1 h
  have sp := pos_of_lt h0 hb
  intro x r fx hx hr
  have hlo : 0 ≤ r - m := by linarith [hr.1]
  have hhi : r - m ≤ s := by linarith [hr.2]
  have g1 := FP.Lawful.rnd_mono hlo
  have g2 := FP.Lawful.rnd_mono hhi
  rw [F64.rnd_zero] at g1
  rw [(fb s hb).1] at g2
  have nh : ¬ FP.huge (FP.rnd (r - m)) := by
    refine fun hh => (fb s hb).2 (FP.Lawful.huge_mono _ s ?_ hh)
    rw [abs_of_pos sp, abs_of_nonneg g1]; exact g2
  have hz := zscore hx ha hb sp (fx r hx).1 (fa m ha).1 nh
  have hD := sub_is hx ha nh
  have q0 : 0 ≤ FP.rnd (r - m) / s := by positivity
  have q1 : FP.rnd (r - m) / s ≤ 1 := by rw [div_le_one sp]; exact g2
  have unit : ∀ {t : ℝ}, 0 ≤ t → t ≤ 1 → 0 ≤ FP.rnd t ∧ FP.rnd t ≤ 1 ∧ ¬ FP.huge (FP.rnd t) := fun {t} h0 h1 =>
    have := rnd_small (x := t) (n := 0) (by norm_num) h0 (by simpa using h1)
    by simpa using this
  obtain ⟨u0, u1, u2⟩ := unit q0 q1
  have hU := div_is hD hb sp.ne' u2
  have z0 : 0 ≤ (r - m) / s := by positivity
  have z1 : (r - m) / s ≤ 1 := by rw [div_le_one sp]; exact hhi
  change Within (TWO_OVER_PI * ((x - a) / b).sqrt.asin) _ _
  have hG : arcsineCDF m (m + s) r = 2 / Real.pi * Real.arcsin (√((r - m) / s)) := by
    rw [arcsineCDF, if_neg (not_lt.2 hr.1), add_sub_cancel_left]
    split_ifs with h
    · have e : r = m + s := le_antisymm hr.2 h
      have e2 : (r - m) / s = 1 := by rw [e]; field_simp; ring
      rw [e2, Real.sqrt_one, Real.arcsin_one]; field_simp
    · rfl
  rw [hG]
  generalize (r - m) / s = z at hz z0 z1 ⊢
  generalize (x - a) / b = Z at hz hU ⊢
  generalize FP.rnd (FP.rnd (r - m) / s) = U at hU u0 u1
  have wz : |U - z| ≤ 1 / 2 ^ 51 + 1 / 2 ^ 120 := by
    rcases hz with ⟨y, h1, h2⟩ | ⟨h1, -⟩ | ⟨h1, -⟩
    · rw [hU.eq h1]
      refine h2.trans ?_
      rw [abs_of_nonneg z0]
      gcongr
    · rw [h1] at hU; rcases hU with h | h <;> simp at h
    · rw [h1] at hU; rcases hU with h | h <;> simp at h
  have s0 := Real.sqrt_nonneg U
  have s1 : √U ≤ 1 := Real.sqrt_le_one.2 u1
  obtain ⟨v0, v1, v2⟩ := unit s0 s1
  have hS : Z.sqrt.Is (FP.rnd (√U)) := by
    rcases hU with rfl | ⟨rfl, rfl⟩
    · change (if U < 0 then nan else F64.round (√U)).Is _
      rw [if_neg (not_lt.2 u0)]
      exact round_is v2
    · rw [Real.sqrt_zero, F64.rnd_zero]; exact Is.negZero
  have hV : |FP.rnd (√U) - √U| ≤ 1 / 2 ^ 53 + 1 / 2 ^ 120 := by
    have e := FP.Lawful.rnd_err (√U)
    rw [abs_of_nonneg s0] at e
    have ht := Within.tiny
    have : √U / 2 ^ 53 ≤ 1 / 2 ^ 53 := by gcongr
    linarith
  generalize FP.rnd (√U) = V at hS hV v0 v1
  have sqe : |V ^ 2 - z| ≤ (9 / 5 / 2 ^ 26) ^ 2 := by
    have e1 : |V ^ 2 - U| ≤ 2 * (1 / 2 ^ 53 + 1 / 2 ^ 120) := by
      have : V ^ 2 - U = (V + √U) * (V - √U) := by
        have := Real.sq_sqrt u0
        calc V ^ 2 - U = V ^ 2 - √U ^ 2 := by rw [this]
          _ = _ := by ring
      rw [this, abs_mul]
      refine mul_le_mul ?_ hV (abs_nonneg _) (by norm_num)
      rw [abs_of_nonneg (by linarith)]; linarith
    have := abs_add_le (V ^ 2 - U) (U - z)
    rw [sub_add_sub_cancel] at this
    refine this.trans ((add_le_add e1 wz).trans ?_)
    norm_num
  have ang : |Real.arcsin V - Real.arcsin (√z)| ≤ Real.pi / 2 * (9 / 5 / 2 ^ 26) := by
    have sz1 : √z ≤ 1 := Real.sqrt_le_one.2 z1
    refine angle_close (Real.arcsin_nonneg.2 v0) (Real.arcsin_le_pi_div_two _) (Real.arcsin_nonneg.2 (Real.sqrt_nonneg _))
      (Real.arcsin_le_pi_div_two _) (by norm_num) ?_
    rw [Real.sin_arcsin (by linarith) v1, Real.sin_arcsin (by linarith [Real.sqrt_nonneg z]) sz1, Real.sq_sqrt z0]
    exact sqe
  have h3 := Real.pi_gt_three
  have h4 := Real.pi_lt_d4
  have w := Within.asin hS v0 v1 ang (by norm_num; linarith)
  have b2 : |2 / Real.pi| ≤ 2 / 3 := by
    rw [abs_of_pos (by positivity)]; exact div_le_div_of_nonneg_left (by norm_num) (by norm_num) h3.le
  have ab : |Real.arcsin (√z)| ≤ 8 / 5 := by
    have k1 := Real.arcsin_le_pi_div_two (√z); have k2 := Real.neg_pi_div_two_le_arcsin (√z)
    rw [abs_le]; constructor <;> linarith
  exact Within.mul (2 / 3) (8 / 5) two_over_pi_within w b2 ab (by norm_num; linarith) (by norm_num; linarith)

/-- C270 (violation): between two and four scales above the centre — beyond the support, where the distribution function is 1 — the computed raised
cosine distribution function is more than 1/4 away from it, for every parameter and every such f64: it is not clamped -/
theorem C270_cosine_violated {a b x : F64} {m s r : ℝ} {d : Cosine} (h : Cosine.new a b = .ok d) (fa : IsF64 a) (ha : a.Is m)
    (hb : b.Is s) (fx : IsF64 x) (hx : x.Is r) (hlo : m + 2 * s ≤ r) (hhi : r ≤ m + 4 * s) (hs : s ≤ 2 ^ 501) :
    cosineCDF m s r = 1 ∧ ∃ p, (d.cdf x).val.Is p ∧ 1 / 4 < |p - cosineCDF m s r| := by
  obtain ⟨h0, rfl⟩ := Cosine.new_ok.1 h
  have sp := pos_of_lt h0 hb
  have hG : cosineCDF m s r = 1 := by rw [cosineCDF, if_neg (by linarith), if_pos (by linarith)]
  refine ⟨hG, ?_⟩
  rw [hG]
  have hz := zscore_all hx ha hb sp hs (fx r hx).1 (fa m ha).1
  have z2 : 2 ≤ (r - m) / s := by rw [le_div_iff₀ sp]; linarith
  have z4 : (r - m) / s ≤ 4 := by rw [div_le_iff₀ sp]; linarith
  change ∃ p, (fin (1 / 2) * (1 + (x - a) / b + ONE_OVER_PI * ((x - a) / b * PI).sin)).Is p ∧ _
  generalize (r - m) / s = z at hz z2 z4
  generalize (x - a) / b = Z at hz ⊢
  have z1 : |z| ≤ 4 := by rw [abs_of_nonneg (by linarith)]; exact z4
  have wz : Within Z z (1 / 2 ^ 48) := by
    have h5 : (4:ℝ) < 2 ^ 500 := lt_of_lt_of_le (by norm_num : (4:ℝ) < 2 ^ 3) (pow_le_pow_right₀ (by norm_num) (by norm_num))
    rcases hz with ⟨y, h1, h2⟩ | ⟨-, h2⟩ | ⟨-, h2⟩
    · refine ⟨y, h1, h2.trans ?_⟩
      have : |z| / 2 ^ 51 ≤ 4 / 2 ^ 51 := by gcongr
      linarith [show (4:ℝ) / 2 ^ 51 + 1 / 2 ^ 120 ≤ 1 / 2 ^ 48 by norm_num]
    · exact absurd (h5.trans_le (h2.trans z4)) (lt_irrefl _)
    · exact absurd (h5.trans_le (le_neg.1 h2 |>.trans (by linarith only [z2]) : (2:ℝ) ^ 500 ≤ 4)) (lt_irrefl _)
  have h3 := Real.pi_gt_three
  have h4 := Real.pi_le_four
  have wpi : Within PI Real.pi (5 / 2 ^ 53) :=
    Within.round (ε := 0) (M := 4) (by simp) (by rw [abs_of_pos (by linarith)]; exact h4) (by norm_num) (by norm_num)
  have w1 := Within.mul (ρ := 1 / 2 ^ 40) 4 4 wz wpi z1 (by rw [abs_of_pos (by linarith)]; exact h4) (by norm_num) (by norm_num)
  have w2 := Within.sin (ρ := 1 / 2 ^ 39) w1 (by norm_num) (by norm_num)
  have b2 : |1 / Real.pi| ≤ 1 / 3 := by
    rw [abs_of_pos (by positivity)]; exact one_div_le_one_div_of_le (by norm_num) h3.le
  have w3 := Within.mul (ρ := 1 / 2 ^ 38) (1 / 3) 1 one_over_pi_within w2 b2 (Real.abs_sin_le_one _) (by norm_num) (by norm_num)
  have w4 := Within.add (ρ := 1 / 2 ^ 38) 5 (Within.exact Is.one) wz (by rw [abs_of_nonneg (by linarith)]; linarith) (by norm_num) (by norm_num)
  have e2 : |1 / Real.pi * Real.sin (z * Real.pi)| ≤ 1 / 3 * 1 := by
    rw [abs_mul]; exact mul_le_mul b2 (Real.abs_sin_le_one _) (abs_nonneg _) (by norm_num)
  obtain ⟨e3, e4⟩ := abs_le.1 e2
  have b5 : |1 + z + 1 / Real.pi * Real.sin (z * Real.pi)| ≤ 6 := by
    rw [abs_le]; constructor <;> linarith
  have w5 := Within.add (ρ := 1 / 2 ^ 36) 6 w4 w3 b5 (by norm_num) (by norm_num)
  obtain ⟨p, hp, he⟩ := Within.mul (ρ := 1 / 2 ^ 30) (1 / 2) 6 (Within.exact (Is.fin (1 / 2))) w5 (by rw [abs_of_pos] <;> norm_num) b5 (by norm_num) (by norm_num)
  refine ⟨p, hp, ?_⟩
  rw [abs_le] at he
  have : (1:ℝ) / 2 ^ 30 ≤ 1 / 100 := by norm_num
  rw [lt_abs]; left
  linarith [he.1]

end

section
open B64
attribute [local instance] binary64 binary64_lawful B64.libm B64.specialFns B64.accurate B64.trig

/-- C270 (violation): half of the digits really are lost: the standard arcsine distribution function in correctly rounded binary64 is more than
2^-30 off at the largest f64 below 1 -/
theorem C270_arcsine_violated : ¬ AccurateCDF Arcsine.default.cdf (arcsineCDF 0 1) (Set.Icc 0 1) (1 / 2 ^ 30) := by
  intro H
  have r1 : B64.rnd (1 - 1 / 2 ^ 53) = 1 - 1 / 2 ^ 53 := by
    have := rnd_repr (2 ^ 53 - 1) (-53) (by norm_num) (by norm_num)
    rw [show ((2 ^ 53 - 1 : ℤ) : ℝ) * 2 ^ (-53 : ℤ) = 1 - 1 / 2 ^ 53 by rw [zpow_neg]; norm_num] at this
    exact this
  have nh : ∀ y : ℝ, |y| ≤ 1 → ¬ FP.huge y := fun y hy hh => by
    have : (2:ℝ) ^ 1024 ≤ |y| := hh
    exact absurd (this.trans hy) (not_le.2 (one_lt_pow₀ (by norm_num) (by norm_num)))
  have hn := nh (1 - 1 / 2 ^ 53) (by rw [abs_of_pos] <;> norm_num)
  have fx : IsF64 (fin (1 - 1 / 2 ^ 53)) := fun r hr => by rw [hr.eq (Is.fin _)]; exact ⟨r1, hn⟩
  obtain ⟨p, hp, he⟩ := H (fin (1 - 1 / 2 ^ 53)) (1 - 1 / 2 ^ 53) fx (Is.fin _) ⟨by norm_num, by norm_num⟩
  change (TWO_OVER_PI * ((fin (1 - 1 / 2 ^ 53) - 0) / 1).sqrt.asin).Is p at hp
  have e1 : (fin (1 - 1 / 2 ^ 53) - 0 : F64).Is (1 - 1 / 2 ^ 53) := by
    refine (sub_is (Is.fin _) Is.zero ?_).congr ?_ <;> rw [sub_zero]
    · change ¬ FP.huge (B64.rnd _); rw [r1]; exact hn
    · exact r1
  have e2 : ((fin (1 - 1 / 2 ^ 53) - 0) / 1 : F64).Is (1 - 1 / 2 ^ 53) := by
    refine (div_is e1 Is.one one_ne_zero ?_).congr ?_ <;> rw [div_one]
    · change ¬ FP.huge (B64.rnd _); rw [r1]; exact hn
    · exact r1
  have r2 : B64.rnd (√(1 - 1 / 2 ^ 53)) = 1 - 1 / 2 ^ 53 := by
    have q : |√((1:ℝ) - 1 / 2 ^ 53)| = √(1 - 1 / 2 ^ 53) := abs_of_nonneg (Real.sqrt_nonneg _)
    have lo : (1:ℝ) - 1 / 2 ^ 53 ≤ √(1 - 1 / 2 ^ 53) := Real.le_sqrt_of_sq_le (by norm_num)
    have hi : √((1:ℝ) - 1 / 2 ^ 53) < 1 - 1 / 2 ^ 54 := by rw [Real.sqrt_lt' (by norm_num)]; norm_num
    have := rnd_eq (x := √(1 - 1 / 2 ^ 53)) (2 ^ 53 - 1) (-53) (by norm_num)
      (by first | (rw [q]; refine le_trans ?_ lo; norm_num) | (refine le_trans ?_ lo; norm_num)) (by first | (rw [q]; refine lt_of_lt_of_le hi ?_; norm_num) | (refine lt_of_lt_of_le hi ?_; norm_num))
      (by rw [abs_lt]; norm_num at lo hi ⊢; constructor <;> linarith)
    rw [this, zpow_neg]; norm_num
  have hS : (((fin (1 - 1 / 2 ^ 53) - 0) / 1 : F64)).sqrt.Is (1 - 1 / 2 ^ 53) := by
    rw [e2.eq_fin (by norm_num)]
    change (if (1 - 1 / 2 ^ 53 : ℝ) < 0 then nan else F64.round (√(1 - 1 / 2 ^ 53))).Is _
    rw [if_neg (by norm_num)]
    have := round_is (r := √(1 - 1 / 2 ^ 53)) (by change ¬ FP.huge (B64.rnd _); rw [r2]; exact hn)
    exact this.congr r2
  have hw := Within.asin (t := Real.arcsin (1 - 1 / 2 ^ 53)) (ε := 0) hS (by norm_num) (by norm_num) (by simp) (by norm_num)
  have h3 := Real.pi_gt_three
  have h4 := Real.pi_lt_d4
  have b2 : |2 / Real.pi| ≤ 2 / 3 := by
    rw [abs_of_pos (by positivity)]; exact div_le_div_of_nonneg_left (by norm_num) (by norm_num) h3.le
  have ab : |Real.arcsin (1 - 1 / 2 ^ 53)| ≤ 8 / 5 := by
    have k1 := Real.arcsin_le_pi_div_two (1 - 1 / 2 ^ 53); have k2 := Real.neg_pi_div_two_le_arcsin (1 - 1 / 2 ^ 53)
    rw [abs_le]; constructor <;> linarith
  obtain ⟨p', hp', he'⟩ := Within.mul (ρ := 1 / 2 ^ 46) (2 / 3) (8 / 5) two_over_pi_within hw b2 ab (by norm_num) (by norm_num)
  rw [hp'.eq hp] at he'
  rw [arcsineCDF, if_neg (by norm_num), if_neg (by norm_num), sub_zero, sub_zero, div_one] at he
  set α := Real.arcsin (1 - 1 / 2 ^ 53) with hα
  set β := Real.arcsin (√(1 - 1 / 2 ^ 53)) with hβ
  have s1 : √((1:ℝ) - 1 / 2 ^ 53) ≤ 1 := Real.sqrt_le_one.2 (by norm_num)
  have sα : Real.sin α = 1 - 1 / 2 ^ 53 := Real.sin_arcsin (by norm_num) (by norm_num)
  have sβ : Real.sin β = √(1 - 1 / 2 ^ 53) := Real.sin_arcsin (by linarith [Real.sqrt_nonneg ((1:ℝ) - 1 / 2 ^ 53)]) s1
  have sβ2 : Real.sin β ^ 2 = 1 - 1 / 2 ^ 53 := by rw [sβ, Real.sq_sqrt (by norm_num)]
  have cα : Real.cos α ≤ 1 / 2 ^ 26 := by
    have := Real.sin_sq_add_cos_sq α
    refine (abs_le.1 (abs_le_of_sq_le_sq (a := Real.cos α) (b := 1 / 2 ^ 26) ?_ (by norm_num))).2
    rw [sα] at this; norm_num at this ⊢; linarith
  have cβ : Real.cos β ≤ 1 / 2 ^ 26 := by
    have := Real.sin_sq_add_cos_sq β
    refine (abs_le.1 (abs_le_of_sq_le_sq (a := Real.cos β) (b := 1 / 2 ^ 26) ?_ (by norm_num))).2
    rw [sβ2] at this; norm_num at this ⊢; linarith
  have ord : α ≤ β := Real.arcsin_le_arcsin (Real.le_sqrt_of_sq_le (by norm_num))
  have α0 : 0 ≤ α := Real.arcsin_nonneg.2 (by norm_num)
  have β2 : β ≤ Real.pi / 2 := Real.arcsin_le_pi_div_two _
  have cα0 : 0 ≤ Real.cos α := Real.cos_arcsin_nonneg _
  have cβ0 : 0 ≤ Real.cos β := Real.cos_arcsin_nonneg _
  have gap : 1 / 2 ^ 54 ≤ Real.sin (β - α) * (1 / 2 ^ 25) := by
    have k2 : Real.sin (β - α) * Real.sin (β + α) = Real.sin β ^ 2 - Real.sin α ^ 2 := by
      rw [Real.sin_sub, Real.sin_add]
      have a1 := Real.sin_sq_add_cos_sq α
      have a2 := Real.sin_sq_add_cos_sq β
      have b1 : Real.cos α ^ 2 = 1 - Real.sin α ^ 2 := by linarith
      have b2 : Real.cos β ^ 2 = 1 - Real.sin β ^ 2 := by linarith
      calc _ = Real.sin β ^ 2 * Real.cos α ^ 2 - Real.cos β ^ 2 * Real.sin α ^ 2 := by ring
        _ = _ := by rw [b1, b2]; ring
    have k3 : Real.sin (β + α) ≤ 1 / 2 ^ 25 := by
      rw [Real.sin_add]
      have u1 : Real.sin β * Real.cos α ≤ 1 * (1 / 2 ^ 26) := mul_le_mul (Real.sin_le_one _) cα cα0 (by norm_num)
      have u2 : Real.cos β * Real.sin α ≤ 1 / 2 ^ 26 * 1 :=
        mul_le_mul cβ (Real.sin_le_one _) (by rw [sα]; norm_num) (by norm_num)
      norm_num at u1 u2 ⊢; linarith
    have k0 : 0 ≤ Real.sin (β - α) := Real.sin_nonneg_of_nonneg_of_le_pi (by linarith) (by linarith)
    have k4 := mul_le_mul_of_nonneg_left k3 k0
    rw [k2, sβ2, sα] at k4
    refine le_trans ?_ k4
    norm_num
  have d1 : Real.sin (β - α) ≤ β - α := Real.sin_le (by linarith)
  have d2 : 1 / 2 ^ 29 ≤ β - α := by
    norm_num at gap ⊢; linarith
  have d3 : 2 / Real.pi * α + 5 / 8 * (β - α) ≤ 2 / Real.pi * β := by
    have : 5 / 8 ≤ 2 / Real.pi := by rw [div_le_div_iff₀ (by norm_num) Real.pi_pos]; linarith
    nlinarith
  obtain ⟨m1, m2⟩ := abs_le.1 he
  obtain ⟨n1, n2⟩ := abs_le.1 he'
  have t1 : (1:ℝ) / 2 ^ 30 + 1 / 2 ^ 46 < 5 / 8 * (1 / 2 ^ 29) := by norm_num
  linarith

/-- C270 non-vacuity: the raised cosine distribution on `[2, 6]` at 5, the arcsine distribution on `[0, 2]` at 1 -/
example : (∃ p : ℝ, (Cosine.cdf ⟨fin 4, fin 2⟩ (fin 4)).val.Is p ∧ |p - cosineCDF 4 2 4| ≤ 1 / 2 ^ 48) ∧
    (∃ p : ℝ, (Arcsine.cdf ⟨fin 1, fin 2⟩ (fin 2)).val.Is p ∧ |p - arcsineCDF 1 (1 + 2) 2| ≤ 1 / 2 ^ 25) ∧
    (∃ p : ℝ, (Cosine.cdf ⟨fin 1, fin 1⟩ (fin 4)).val.Is p ∧ 1 / 4 < |p - cosineCDF 1 1 4|) := by
  have f1 : IsF64 (fin 1) := by have := isF64_pow 0 (by norm_num); norm_num at this; exact this
  have f2 : IsF64 (fin 2) := by have := isF64_pow 1 (by norm_num); norm_num at this; exact this
  have f4 : IsF64 (fin 4) := by have := isF64_pow 2 (by norm_num); norm_num at this; exact this
  refine ⟨C270_cosine_partial (Cosine.new_ok.2 ⟨lt_of_pos (by norm_num) (Is.fin _), rfl⟩) f4 (Is.fin _) f2 (Is.fin _) _ _ f4 (Is.fin _)
      ⟨by norm_num, by norm_num⟩,
    C270_arcsine_partial (Arcsine.new_ok.2 ⟨lt_of_pos (by norm_num) (Is.fin _), rfl⟩) f1 (Is.fin _) f2 (Is.fin _) _ _ f2 (Is.fin _)
      ⟨by norm_num, by norm_num⟩,
    (C270_cosine_violated (Cosine.new_ok.2 ⟨lt_of_pos (by norm_num) (Is.fin _), rfl⟩) f1 (Is.fin _) (Is.fin _) f4 (Is.fin _)
      (by norm_num) (by norm_num) (one_le_pow₀ (by norm_num))).2⟩
end
end Rstat
