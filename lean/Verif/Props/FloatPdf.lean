import Verif.Props.FloatCdf7
import Verif.Props.FloatCdf5
import Verif.Props.Dist.LogNormal
import Verif.Props.Dist.FoldedNormal
import Verif.Props.Dist.Laplace
import Verif.Props.Dist.Levy
import Verif.Props.Dist.Gamma
import Verif.Props.Dist.Erlang
import Verif.Props.Dist.InvNormal

/-! C210, C211: densities in rounded arithmetic. A density must be a non-negative number, never NaN, at every non-NaN point of the
closed support. -/
namespace Rstat
open F64 Spec Consts
set_option linter.unusedSectionVars false

section
variable [FP] [FP.Lawful] [FP.Libm]

theorem pinf_mul_zero {a : F64} (ha : a.Is 0) : pinf * a = nan := by
  change F64.mul pinf a = nan
  rcases ha with rfl | ⟨rfl, -⟩ <;> simp [F64.mul, F64.isInf, F64.isFinite, F64.toReal]
theorem ninf_mul_zero {a : F64} (ha : a.Is 0) : ninf * a = nan := by
  change F64.mul ninf a = nan
  rcases ha with rfl | ⟨rfl, -⟩ <;> simp [F64.mul, F64.isInf, F64.isFinite, F64.toReal]
theorem zero_div_zero' {a b : F64} (ha : a.Is 0) (hb : b.Is 0) : a / b = nan := by
  change F64.div a b = nan
  rcases ha with rfl | ⟨rfl, -⟩ <;> rcases hb with rfl | ⟨rfl, -⟩ <;> simp [F64.div, F64.isInf, F64.toReal]
theorem nan_mul' (a : F64) : nan * a = nan := by change F64.mul nan a = nan; cases a <;> rfl
theorem nan_div' (a : F64) : nan / a = nan := by change F64.div nan a = nan; cases a <;> rfl

/-- a computed quantity in `[0, 1]` divided by a positive one is non-negative -/
theorem unit_div_pos {x k : F64} (h0 : 0 ≤ x) (h1 : x ≤ 1) (hk : 0 < k) : (0:F64) ≤ x / k := by
  obtain ⟨hr, hr0, hr1⟩ := is_of_le_le Is.zero Is.one h0 h1
  rcases pos_cases hk with rfl | ⟨s, rfl, hs⟩
  · have : (x / pinf).Is 0 := by
      generalize x.toReal = r at hr
      rcases hr with rfl | ⟨rfl, -⟩
      · change (F64.div (fin r) pinf).Is 0
        simp only [F64.div]
        rw [if_neg (show ¬ F64.isInf _ from id), if_pos (show F64.isInf pinf from trivial)]; exact szero_is _
      · change (F64.div negZero pinf).Is 0
        simp only [F64.div]
        rw [if_neg (show ¬ F64.isInf _ from id), if_pos (show F64.isInf pinf from trivial)]; exact szero_is _
    exact (Is.zero.le_iff this).2 le_rfl
  · exact le_congr rfl (div_fin_ext hr (Is.fin s) hs.ne').symm (round_nonneg (div_nonneg hr0 hs.le))

/-- C210: the exponential density, at every f64 except NaN (it is not cut off below 0) -/
theorem C210_exponential {a : F64} {d : Exponential} (h : Exponential.new a = .ok d) (ha : a.isFinite) (x : F64) (hx : x ≠ nan) :
    0 ≤ d.pdf x := by
  obtain ⟨h0, rfl⟩ := Exponential.new_ok.1 h
  obtain ⟨s, rfl, hs⟩ := finite_pos h0 ha
  change 0 ≤ fin s * F64.exp (-(fin s) * x)
  have hn : -(fin s) * x ≠ nan := by
    have e : -(fin s) = fin (-s) := (Is.fin s).neg.eq_fin (by linarith)
    rw [e]
    cases x with
    | nan => exact absurd rfl hx
    | pinf => change F64.mul (fin (-s)) pinf ≠ nan; simp [F64.mul, F64.isInf, F64.isFinite, F64.toReal, hs.ne', sinf]; split_ifs <;> simp
    | ninf => change F64.mul (fin (-s)) ninf ≠ nan; simp [F64.mul, F64.isInf, F64.isFinite, F64.toReal, hs.ne', sinf]; split_ifs <;> simp
    | negZero => exact ne_nan_of_ext (mul_fin_ext (Is.fin _) Is.negZero) (round_ne_nan _)
    | fin r => exact ne_nan_of_ext (mul_fin_ext (Is.fin _) (Is.fin r)) (round_ne_nan _)
  refine le_trans' (le_congr rfl (mul_fin_ext (Is.fin s) Is.zero).symm ?_) (const_mul_mono hs (exp_nonneg hn))
  rw [mul_zero]; exact (Is.zero.le_iff round_zero_is).2 le_rfl

/-- C210: the uniform density, at every f64 -/
theorem C210_uniform {a b : F64} {d : UniformF} (h : UniformF.new a b = .ok d) (x : F64) : 0 ≤ d.pdf x := by
  obtain ⟨h0, rfl⟩ := UniformF.new_ok.1 h
  unfold UniformF.pdf
  dsimp only
  split_ifs
  · exact le_rfl' zero_ne_nan'
  · exact unit_div_pos zero_le_one' (le_rfl' Is.one.ne_nan) h0

/-- C210: the Laplace density returns, a number in `[0, 1]`, at every f64 except NaN (the formula is that of the cdf, see C68) -/
theorem C210_laplace {a b : F64} {d : Laplace} (h : Laplace.new a b = .ok d) (ha : a.isFinite) (hb : b.isFinite) (x : F64) (hx : x ≠ nan) :
    ∃ v, d.pdf x = .ok v ∧ 0 ≤ v ∧ v ≤ 1 := by
  classical
  obtain ⟨h0, rfl⟩ := Laplace.new_ok.1 h
  obtain ⟨s, rfl, hs⟩ := finite_pos h0 hb
  have half : ∀ {e : F64}, 0 ≤ e → e ≤ 1 → (0:F64) ≤ e / fin 2 ∧ e / fin 2 ≤ 1 := fun {e} g0 g1 => by
    obtain ⟨hr, hr0, hr1⟩ := is_of_le_le Is.zero Is.one g0 g1
    have e := div_fin_ext hr (Is.fin 2) two_ne_zero
    exact ⟨le_congr rfl e.symm (round_nonneg (by linarith)), le_congr e.symm rfl (round_le_one (by linarith))⟩
  have ex : ∀ {u w : F64}, u ≤ w → w.Is 0 → (0:F64) ≤ u.exp ∧ u.exp ≤ 1 := fun {u w} g g0 =>
    ⟨exp_nonneg (ne_nan_left g), exp_le_one (le_trans' g ((g0.le_iff Is.zero).2 le_rfl))⟩
  have zz : ∀ {c : F64}, c.isFinite → ((c - c) / fin s).Is 0 := fun {c} hc => by
    have e1 : (c - c).Is 0 := by
      rcases add_eq_round hc.is hc.is.neg with h' | ⟨h', h'', _⟩
      · change (c + -c).Is 0
        rw [h', add_neg_cancel]; exact round_zero_is
      · rw [h'] at h''; cases h''
    rw [div_finite e1 (Is.fin s) hs.ne', if_pos rfl]; exact szero_is _
  unfold Laplace.pdf
  dsimp only
  by_cases c1 : x < a ∨ x.feq a
  · rw [if_pos c1]
    have hxa : x ≤ a := by
      rcases c1 with c | c
      · exact le_of_lt' c
      · obtain ⟨u, hu, hv⟩ := c
        exact ⟨u, u, hu, hv, le_rfl⟩
    have g := ex (z_mono ha hs hxa) (zz ha)
    exact ⟨_, rfl, half g.1 g.2⟩
  · have hax : a < x := (le_total' hx ha.is.ne_nan).resolve_left (fun hle => c1 (by
      by_cases h2 : x < a
      · exact Or.inl h2
      · right
        obtain ⟨u, v, hu, hv, e⟩ := hle
        exact ⟨u, hu, ((not_lt.1 (fun h3 => h2 ⟨u, v, hu, hv, h3⟩)).antisymm e) ▸ hv⟩))
    rw [if_neg c1, if_pos hax]
    have g := ex (div_const_mono hs (const_sub_anti ha.is (le_of_lt' hax))) (zz ha)
    have g2 := half g.1 g.2
    refine ⟨_, rfl, ?_, ?_⟩
    · exact le_trans' ((Is.zero.le_iff (one_sub_one Is.one)).2 le_rfl) (const_sub_anti Is.one g2.2)
    · exact le_trans' (const_sub_anti Is.one g2.1) (((one_sub_zero Is.zero).le_iff Is.one).2 le_rfl)

theorem pi_bounds : ∃ p, PI.Rep p ∧ 1 ≤ p ∧ p ≤ 4 := by
  have h3 := Real.pi_gt_three
  have h4 := Real.pi_le_four
  have r4 : FP.rnd (4:ℝ) = 4 := by have := rnd_natCast 4 (by norm_num); exact_mod_cast this
  have l : 1 ≤ FP.rnd Real.pi := by have := FP.Lawful.rnd_mono (by linarith : (1:ℝ) ≤ Real.pi); rwa [rnd_one] at this
  have u : FP.rnd Real.pi ≤ 4 := by have := FP.Lawful.rnd_mono h4; rwa [r4] at this
  have nh : ¬ FP.huge (FP.rnd Real.pi) := FP.Lawful.not_huge _ (by
    rw [abs_of_nonneg (by linarith)]
    exact u.trans ((by norm_num : (4:ℝ) ≤ 2 ^ 2).trans (pow_le_pow_right₀ (by norm_num) (by norm_num))))
  exact ⟨_, ⟨round_is nh, FP.Lawful.rnd_idem _, nh⟩, l, u⟩

theorem sqrt_two_pi : ∃ c, PI_2.sqrt = fin c ∧ 1 ≤ c := by
  obtain ⟨p, hp, p1, p4⟩ := pi_bounds
  have r8 : FP.rnd (8:ℝ) = 8 := by have := rnd_natCast 8 (by norm_num); exact_mod_cast this
  have l : 1 ≤ FP.rnd (p * 2) := by have := FP.Lawful.rnd_mono (by linarith : (1:ℝ) ≤ p * 2); rwa [rnd_one] at this
  have u : FP.rnd (p * 2) ≤ 8 := by have := FP.Lawful.rnd_mono (by linarith : p * 2 ≤ 8); rwa [r8] at this
  have nh : ¬ FP.huge (FP.rnd (p * 2)) := FP.Lawful.not_huge _ (by
    rw [abs_of_nonneg (by linarith)]
    exact u.trans ((by norm_num : (8:ℝ) ≤ 2 ^ 3).trans (pow_le_pow_right₀ (by norm_num) (by norm_num))))
  have h2 : PI_2.Is (FP.rnd (p * 2)) := mul_is hp.1 (Is.num 2) nh
  have e2 := h2.eq_fin (by linarith)
  obtain ⟨c, hc, hc0, hcv⟩ := Rep.sqrt (a := PI_2) ⟨h2, FP.Lawful.rnd_idem _, nh⟩ (by linarith)
  refine ⟨c, hc, ?_⟩
  have m : (fin 1).sqrt ≤ PI_2.sqrt := sqrt_mono (fin_le_fin.2 (by norm_num)) (by rw [e2]; exact fin_le_fin.2 l)
  have e1 : (fin 1).sqrt = fin 1 := by
    change (if (1:ℝ) < 0 then nan else F64.round (Real.sqrt 1)) = fin 1
    rw [if_neg (by norm_num), Real.sqrt_one, round_one]
  rw [e1, hc] at m
  exact fin_le_fin.1 m

/-- `exp(-z*z/2)` for a non-NaN `z` lies in `[0, 1]` -/
theorem gauss_unit {z : F64} (hz : z ≠ nan) : (0:F64) ≤ F64.exp (-z * z / 2) ∧ F64.exp (-z * z / 2) ≤ 1 := by
  have h : -z * z ≤ 0 := by
    cases z with
    | nan => exact absurd rfl hz
    | pinf => change ninf * pinf ≤ 0; rw [ninf_mul_pinf]; exact bot_le' zero_ne_nan'
    | ninf => change pinf * ninf ≤ 0; rw [pinf_mul_ninf]; exact bot_le' zero_ne_nan'
    | negZero => exact le_congr (mul_fin_ext Is.negZero.neg Is.negZero).symm rfl (by
        rw [mul_zero]; exact (round_zero_is.le_iff Is.zero).2 le_rfl)
    | fin r => exact le_congr (mul_fin_ext (Is.fin r).neg (Is.fin r)).symm rfl (le_trans' (round_mono (by nlinarith [mul_self_nonneg r] : -r * r ≤ 0))
        ((round_zero_is.le_iff Is.zero).2 le_rfl))
  have h2 : -z * z / 2 ≤ 0 := by
    refine le_trans' (div_const_mono two_pos h) ?_
    have : ((0:F64) / fin 2).Is 0 := by rw [div_finite Is.zero (Is.fin 2) two_ne_zero, if_pos rfl]; exact szero_is _
    exact (this.le_iff Is.zero).2 le_rfl
  exact ⟨exp_nonneg (ne_nan_left h2), exp_le_one h2⟩

/-- `k * s` is positive for representable `s > 0` and a factor `k ≥ 1` -/
theorem mul_pos_of_one_le {k s : ℝ} (hk : 1 ≤ k) (hs : 0 < s) (hr : FP.rnd s = s) : (0:F64) < fin k * fin s := by
  have e := mul_fin_ext (Is.fin k) (Is.fin s)
  have h1 : F64.round s ≤ F64.round (k * s) := round_mono (by nlinarith)
  have h2 : (0:F64) < F64.round s := by
    by_cases hh : FP.huge (FP.rnd s)
    · have : F64.round s = if 0 < s then pinf else ninf := if_pos hh
      rw [this, if_pos hs]; exact ⟨_, _, rfl, rfl, EReal.coe_lt_top 0⟩
    · exact (Is.zero.lt_iff ((round_is hh).congr hr)).2 hs
  have h3 := lt_of_lt_of_le' h2 (le_congr rfl e.symm h1)
  exact h3

/-- the normal density is a non-negative number at every f64 except NaN -/
theorem normal_pdf_nonneg {a b : F64} {r : ℝ} (ha : a.isFinite) (hb : b.Rep r) (h0 : 0 < b) (x : F64) (hx : x ≠ nan) :
    0 ≤ UvNormal.pdf ⟨a, b⟩ x := by
  have hr : 0 < r := pos_of_lt h0 hb.1
  obtain ⟨s, hs, hs0, hsr⟩ := hb.sqrt hr
  obtain ⟨c, hc, hc1⟩ := sqrt_two_pi
  change 0 ≤ F64.exp (-((x - a) / b.sqrt) * ((x - a) / b.sqrt) / 2) / (PI_2.sqrt * b.sqrt)
  rw [hs, hc]
  have hz : (x - a) / fin s ≠ nan := ne_nan_left (z_mono ha hs0 (le_rfl' hx))
  obtain ⟨g0, g1⟩ := gauss_unit hz
  exact unit_div_pos g0 g1 (mul_pos_of_one_le hc1 hs0 (by rw [hsr]; exact FP.Lawful.rnd_idem _))

/-- C210: Normal -/
theorem C210_normal {a b : F64} {r : ℝ} {d : UvNormal} (h : UvNormal.new a b = .ok d) (ha : a.isFinite) (hb : b.Rep r) (x : F64)
    (hx : x ≠ nan) : 0 ≤ d.pdf x := by
  obtain ⟨h0, rfl⟩ := UvNormal.new_ok.1 h
  exact normal_pdf_nonneg ha hb h0 x hx

/-- C210: LogNormal, on `[0, +inf]` -/
theorem C210_lognormal {a b : F64} {r : ℝ} {d : LogNormal} (h : LogNormal.new a b = .ok d) (ha : a.isFinite) (hb : b.Rep r) (x : F64)
    (hx : 0 ≤ x) : 0 ≤ d.pdf x := by
  obtain ⟨h0, rfl⟩ := LogNormal.new_ok.1 h
  exact normal_pdf_nonneg ha hb h0 _ (ne_nan_left (ln_mono hx (le_rfl' (ne_nan_right hx))))

/-- C210: FoldedNormal, at every f64 except NaN -/
theorem C210_folded_normal {a b : F64} {r : ℝ} {d : FoldedNormal} (h : FoldedNormal.new a b = .ok d) (ha : a.isFinite) (hb : b.Rep r)
    (x : F64) (hx : x ≠ nan) : 0 ≤ d.pdf x := by
  obtain ⟨h0, rfl⟩ := FoldedNormal.new_ok.1 h
  have hr : 0 < r := pos_of_lt h0 hb.1
  have eb := hb.1.eq_fin hr.ne'
  obtain ⟨c, hc, hc1⟩ := sqrt_two_pi
  change 0 ≤ F64.exp (-((x + a) / b) * ((x + a) / b) / 2) / (PI_2.sqrt * b) + F64.exp (-((x - a) / b) * ((x - a) / b) / 2) / (PI_2.sqrt * b)
  rw [hc, eb]
  have hz1 : (x + a) / fin r ≠ nan := ne_nan_left (div_const_mono hr (add_const_mono ha.is (le_rfl' hx)))
  have hz2 : (x - a) / fin r ≠ nan := ne_nan_left (z_mono ha hr (le_rfl' hx))
  obtain ⟨g0, g1⟩ := gauss_unit hz1
  obtain ⟨g2, g3⟩ := gauss_unit hz2
  have p := mul_pos_of_one_le hc1 hr hb.2.1
  have u := unit_div_pos g0 g1 p
  have v := unit_div_pos g2 g3 p
  rcases nonneg_cases u with hu | ⟨s, hs, hs0⟩
  · rcases nonneg_cases v with hv | ⟨t, ht, _⟩
    · rw [hu, hv]; exact le_top' zero_ne_nan'
    · rw [hu, pinf_add ht]; exact le_top' zero_ne_nan'
  · rcases nonneg_cases v with hv | ⟨t, ht, ht0⟩
    · rw [hv, fin_add_pinf hs]; exact le_top' zero_ne_nan'
    · exact le_congr rfl (add_ext hs ht).symm (round_nonneg (by linarith))
end
end Rstat
