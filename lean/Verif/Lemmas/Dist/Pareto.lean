import Verif.Lemmas.Dist.PowerExp

/-! The Pareto law. -/
namespace Rstat.Spec
open MeasureTheory Filter Topology Set Real

theorem pareto_density {m a : ℝ} (hm : 0 < m) (ha : 0 < a) :
    IsCDF (paretoCDF m a) ∧ IsDensityOf (paretoPDF m a) (paretoCDF m a) := by
  have hmo : ∀ x ∈ Ioi m, HasDerivAt (fun x => 1 - (m / x) ^ a) (a * m ^ a * x ^ (-(a + 1))) x := fun x hx => by
    have hx : 0 < x := lt_trans hm hx
    have h1 := ((hasDerivAt_id x).inv hx.ne').const_mul m
    have h2 := (h1.rpow_const (p := a) (Or.inl (mul_pos hm (inv_pos.2 hx)).ne')).const_sub 1
    refine HasDerivAt.congr_deriv (f := fun x => 1 - (m / x) ^ a) (h2.congr_of_eventuallyEq ?_) ?_
    · exact Eventually.of_forall fun y => by simp [div_eq_mul_inv]
    · show -(m * (-1 / x ^ 2) * a * (m * x⁻¹) ^ (a - 1)) = _
      rw [Real.mul_rpow hm.le (by positivity), Real.inv_rpow hx.le, ← Real.rpow_neg hx.le, Real.rpow_sub_one hm.ne',
        show -(a - 1) = -(a + 1) + 2 by ring, Real.rpow_add hx, Real.rpow_two]
      field_simp
  have hc := half_isCDF (a := m) (G := fun x => 1 - (m / x) ^ a) (fun x hx y hy hxy => ?_) ?_ ?_
    (fun x hx => (hmo x hx).continuousAt.continuousWithinAt)
  · refine ⟨hc.1, density_of_deriv (s := {m}) hc.1 hc.2 (countable_singleton m) (fun x hx => ?_) (fun x => ?_)⟩
    · rcases lt_or_gt_of_ne (show x ≠ m from hx) with h | h
      · rw [paretoPDF, if_pos h]
        refine (hasDerivAt_const x (0 : ℝ)).congr_of_eventuallyEq ?_
        filter_upwards [Iio_mem_nhds h] with t ht
        rw [paretoCDF, if_pos (mem_Iio.1 ht).le]
      · rw [paretoPDF, if_neg (not_lt.2 h.le)]
        refine (hmo x h).congr_of_eventuallyEq ?_
        filter_upwards [Ioi_mem_nhds h] with t ht
        rw [paretoCDF, if_neg (not_le.2 ht)]
    · unfold paretoPDF; split_ifs with h
      · exact le_rfl
      · have : 0 < x := lt_of_lt_of_le hm (not_lt.1 h)
        positivity
  · have hx : m < x := hx
    have hx0 : 0 < x := hm.trans hx
    have hy0 : 0 < y := hm.trans hy
    have : (m / y) ^ a ≤ (m / x) ^ a := by gcongr
    simp only; linarith
  · have h1 : Tendsto (fun x => 1 - (m / x) ^ a) (𝓝[>] m) (𝓝 (1 - (m / m) ^ a)) := by
      have : ContinuousAt (fun x => 1 - (m / x) ^ a) m := by
        refine ContinuousAt.sub continuousAt_const (ContinuousAt.rpow_const ?_ (Or.inr ha.le))
        exact continuousAt_const.div continuousAt_id hm.ne'
      exact this.tendsto.mono_left nhdsWithin_le_nhds
    rwa [div_self hm.ne', one_rpow, sub_self] at h1
  · have h1 : Tendsto (fun x : ℝ => m / x) atTop (𝓝 0) := tendsto_const_nhds.div_atTop tendsto_id
    have h2 := ((Real.continuousAt_rpow_const 0 a (Or.inr ha.le)).tendsto.comp h1).const_sub 1
    simpa only [Real.zero_rpow ha.ne', sub_zero, Function.comp_def] using h2

theorem pareto_raw_eq {m a : ℝ} (n : ℕ) : ∀ x, m < x → 0 < m →
    x ^ n * paretoPDF m a x = a * m ^ a * x ^ ((n : ℝ) - a - 1) := fun x hx hm => by
  have hx0 : 0 < x := hm.trans hx
  rw [paretoPDF, if_neg (not_lt.2 hx.le), show (n:ℝ) - a - 1 = n + -(a + 1) by ring, Real.rpow_add hx0, Real.rpow_natCast]
  ring

theorem pareto_raw {m a : ℝ} (hm : 0 < m) (ha : 0 < a) {n : ℕ} (h : (n : ℝ) < a) :
    HasCentral (paretoPDF m a) 0 n (a * m ^ n / (a - n)) := by
  have hlt : (n:ℝ) - a - 1 < -1 := by linarith
  obtain ⟨h1, h2⟩ := supp_integral_Ioi (a := m) (F := fun x => x ^ n * paretoPDF m a x)
    (G := fun x => a * m ^ a * x ^ ((n : ℝ) - a - 1)) (fun x hx => pareto_raw_eq n x hx hm)
    (fun x hx => by rw [paretoPDF, if_pos hx, mul_zero]) ((integrableOn_Ioi_rpow_of_lt hlt hm).const_mul _)
  unfold HasCentral; simp only [sub_zero]
  refine ⟨h1, ?_⟩
  rw [h2, integral_const_mul, integral_Ioi_rpow_of_lt hlt hm]
  have e : (n:ℝ) - a - 1 + 1 = n - a := by ring
  rw [e, Real.rpow_sub hm, Real.rpow_natCast]
  have h3 : a - n ≠ 0 := by linarith
  have h4 : (n:ℝ) - a ≠ 0 := by linarith
  have h5 : m ^ a ≠ 0 := by positivity
  rw [neg_div, ← div_neg, neg_sub]
  field_simp

theorem pareto_raw_infinite {m a : ℝ} (hm : 0 < m) (ha : 0 < a) {n : ℕ} (h : a ≤ n) :
    ¬ Integrable fun x => x ^ n * paretoPDF m a x := fun hi => by
  have h1 : IntegrableOn (fun x => x ^ n * paretoPDF m a x) (Ioi m) := hi.integrableOn
  have h2 : IntegrableOn (fun x => a * m ^ a * x ^ ((n : ℝ) - a - 1)) (Ioi m) :=
    h1.congr_fun (fun x hx => pareto_raw_eq n x hx hm) measurableSet_Ioi
  have h3 : IntegrableOn (fun x => x ^ ((n : ℝ) - a - 1)) (Ioi m) := by
    have := Integrable.const_mul h2 (a * m ^ a)⁻¹
    refine IntegrableOn.congr_fun this (fun x _ => ?_) measurableSet_Ioi
    have : a * m ^ a ≠ 0 := by positivity
    field_simp
  rw [integrableOn_Ioi_rpow_iff hm] at h3
  linarith

theorem pareto_central_infinite {m a : ℝ} (hm : 0 < m) (ha : 0 < a) {n : ℕ} (h : a ≤ n) (c v : ℝ) :
    ¬ HasCentral (paretoPDF m a) c n v := fun hc => pareto_raw_infinite hm ha h
    (raw_integrable_of_central (pareto_density hm ha).2.nonneg (pareto_density hm ha).2.integrable hc.1)

/-- expectations under the Pareto law are expectations of `m e^{T/a}` with `T` unit exponential -/
theorem pareto_transfer {m a : ℝ} (hm : 0 < m) (ha : 0 < a) (h : ℝ → ℝ) :
    (Integrable (fun x => h x * paretoPDF m a x) ↔ IntegrableOn (fun t => h (m * rexp (t / a)) * rexp (-t)) (Ioi 0)) ∧
    ∫ x, h x * paretoPDF m a x = ∫ t in Ioi 0, h (m * rexp (t / a)) * rexp (-t) := by
  refine transfer (T := Ioi 0) (φ := fun t => m * rexp (t / a)) (φ' := fun t => m / a * rexp (t / a)) measurableSet_Ioi
    (fun t _ => ?_) (fun x _ y _ hxy => ?_) (fun t ht => ?_) ?_ h
  · have := (((hasDerivAt_id t).div_const a).exp).const_mul m
    refine HasDerivAt.congr_deriv (f := fun t => m * rexp (t / a)) this ?_
    show m * (rexp (t / a) * (1 / a)) = _
    ring
  · have := Real.exp_injective (mul_left_cancel₀ hm.ne' hxy)
    field_simp at this; exact this
  · have ht : 0 < t := ht
    have hgt : m ≤ m * rexp (t / a) := le_mul_of_one_le_right hm.le (Real.one_le_exp (by positivity))
    rw [paretoPDF, if_neg (not_lt.2 hgt), abs_of_pos (by positivity), Real.mul_rpow hm.le (Real.exp_pos _).le, ← Real.exp_mul,
      Real.rpow_neg hm.le, Real.rpow_add_one hm.ne', show t / a * -(a + 1) = -t + -(t / a) by field_simp; ring, Real.exp_add,
      Real.exp_neg (t / a)]
    have := Real.exp_pos (t / a)
    field_simp
  · have hs : ({m} : Set ℝ).Countable := countable_singleton m
    filter_upwards [compl_mem_ae_iff.2 (hs.measure_zero volume)] with x hx hx2
    have hx : x ≠ m := hx
    rw [paretoPDF]
    by_cases hxm : x < m
    · rw [if_pos hxm]
    · have hgt : m < x := lt_of_le_of_ne (not_lt.1 hxm) hx.symm
      refine absurd ⟨a * Real.log (x / m), ?_, ?_⟩ hx2
      · exact mul_pos ha (Real.log_pos ((one_lt_div hm).2 hgt))
      · simp only
        rw [mul_div_cancel_left₀ _ ha.ne', Real.exp_log (div_pos (hm.trans hgt) hm), mul_div_cancel₀ _ hm.ne']

/-- `E[ln(X/m)] = 1/a`, `E[ln(X/m)²] = 2/a²` -/
theorem pareto_log {m a : ℝ} (hm : 0 < m) (ha : 0 < a) :
    (Integrable (fun x => Real.log (x / m) * paretoPDF m a x) ∧ ∫ x, Real.log (x / m) * paretoPDF m a x = 1 / a) ∧
    (Integrable (fun x => Real.log (x / m) ^ 2 * paretoPDF m a x) ∧ ∫ x, Real.log (x / m) ^ 2 * paretoPDF m a x = 2 / a ^ 2) := by
  obtain ⟨b1, b2⟩ := exp_rpow (s := 1) (by norm_num)
  obtain ⟨c1, c2⟩ := exp_rpow (s := 2) (by norm_num)
  simp only [rpow_one] at b1 b2
  have e0 : ∀ t : ℝ, Real.log (m * rexp (t / a) / m) = t / a := fun t => by
    rw [mul_div_cancel_left₀ _ hm.ne', Real.log_exp]
  constructor
  · obtain ⟨t1, t2⟩ := pareto_transfer hm ha (fun x => Real.log (x / m))
    have e : ∀ t ∈ Ioi (0:ℝ), 1 / a * (t * rexp (-t)) = Real.log (m * rexp (t / a) / m) * rexp (-t) := fun t _ => by
      rw [e0]; ring
    refine ⟨t1.2 (IntegrableOn.congr_fun (b1.const_mul _) e measurableSet_Ioi), ?_⟩
    rw [t2, ← setIntegral_congr_fun measurableSet_Ioi e, integral_const_mul, b2, show (1:ℝ) + 1 = 2 by norm_num, Real.Gamma_two,
      mul_one]
  · obtain ⟨t1, t2⟩ := pareto_transfer hm ha (fun x => Real.log (x / m) ^ 2)
    have e : ∀ t ∈ Ioi (0:ℝ), 1 / a ^ 2 * (t ^ (2:ℝ) * rexp (-t)) = Real.log (m * rexp (t / a) / m) ^ 2 * rexp (-t) := fun t _ => by
      rw [e0, rpow_two]; ring
    refine ⟨t1.2 (IntegrableOn.congr_fun (c1.const_mul _) e measurableSet_Ioi), ?_⟩
    rw [t2, ← setIntegral_congr_fun measurableSet_Ioi e, integral_const_mul, c2]
    have : Real.Gamma (1 + 2) = 2 := by
      rw [show (1:ℝ) + 2 = ((2:ℕ):ℝ) + 1 by norm_num, Real.Gamma_nat_eq_factorial]; norm_num
    rw [this]; ring

theorem pareto_entropy {m a : ℝ} (hm : 0 < m) (ha : 0 < a) :
    HasEntropy (paretoPDF m a) (Real.log (m / a) + 1 + 1 / a) := by
  obtain ⟨-, hD⟩ := pareto_density hm ha
  obtain ⟨⟨l1, l2⟩, -⟩ := pareto_log hm ha
  have e : (fun x => paretoPDF m a x * Real.log (paretoPDF m a x)) =
      fun x => Real.log (a / m) * paretoPDF m a x - (a + 1) * (Real.log (x / m) * paretoPDF m a x) := by
    ext x
    by_cases h : x < m
    · rw [paretoPDF, if_pos h]; simp
    · have hx : 0 < x := hm.trans_le (not_lt.1 h)
      rw [paretoPDF, if_neg h, Real.log_mul (by positivity) (by positivity), Real.log_mul ha.ne' (by positivity), Real.log_rpow hm,
        Real.log_rpow hx, Real.log_div ha.ne' hm.ne', Real.log_div hx.ne' hm.ne']
      ring
  unfold HasEntropy
  rw [e]
  have i1 : Integrable (fun x => Real.log (a / m) * paretoPDF m a x) := hD.integrable.const_mul _
  have i2 : Integrable (fun x => (a + 1) * (Real.log (x / m) * paretoPDF m a x)) := l1.const_mul _
  refine ⟨i1.sub i2, ?_⟩
  rw [integral_sub i1 i2, integral_const_mul, integral_const_mul, hD.total, l2, Real.log_div ha.ne' hm.ne',
    Real.log_div hm.ne' ha.ne']
  field_simp
  ring
end Rstat.Spec

namespace Rstat.Spec
open MeasureTheory Filter Topology Set Real

theorem pareto_dlog_m {m a x : ℝ} (hm : 0 < m) (ha : 0 < a) (hx : m < x) :
    deriv (fun t => Real.log (paretoPDF t a x)) m = a / m := by
  have h : HasDerivAt (fun t => Real.log a + a * Real.log t - (a + 1) * Real.log x) (a * m⁻¹) m :=
    ((((Real.hasDerivAt_log hm.ne').const_mul a).const_add (Real.log a)).sub_const ((a + 1) * Real.log x))
  have h2 : HasDerivAt (fun t => Real.log (paretoPDF t a x)) (a * m⁻¹) m := by
    refine h.congr_of_eventuallyEq ?_
    filter_upwards [Ioo_mem_nhds hm hx] with t ht
    have hx0 : 0 < x := hm.trans hx
    have ht0 : 0 < t := ht.1
    rw [paretoPDF, if_neg (not_lt.2 ht.2.le), Real.log_mul (by positivity) (by positivity), Real.log_mul ha.ne' (by positivity),
      Real.log_rpow ht.1, Real.log_rpow hx0]
    ring
  rw [h2.deriv, div_eq_mul_inv]

theorem pareto_dlog_a {m a x : ℝ} (hm : 0 < m) (ha : 0 < a) (hx : m < x) :
    deriv (fun t => Real.log (paretoPDF m t x)) a = 1 / a - Real.log (x / m) := by
  have hx0 : 0 < x := hm.trans hx
  have h : HasDerivAt (fun t => Real.log t + t * Real.log m - (t + 1) * Real.log x)
      (a⁻¹ + 1 * Real.log m - 1 * Real.log x) a :=
    ((Real.hasDerivAt_log ha.ne').add ((hasDerivAt_id a).mul_const _)).sub (((hasDerivAt_id a).add_const 1).mul_const _)
  have h2 : HasDerivAt (fun t => Real.log (paretoPDF m t x)) (a⁻¹ + 1 * Real.log m - 1 * Real.log x) a := by
    refine h.congr_of_eventuallyEq ?_
    filter_upwards [Ioi_mem_nhds ha] with t ht
    have ht : 0 < t := ht
    rw [paretoPDF, if_neg (not_lt.2 hx.le), Real.log_mul (by positivity) (by positivity), Real.log_mul ht.ne' (by positivity),
      Real.log_rpow hm, Real.log_rpow hx0]
    ring
  rw [h2.deriv, Real.log_div hx0.ne' hm.ne']
  ring

/-- the Fisher information of the Pareto family in `(x_m, α)`: `diag (α²/x_m², 1/α²)` -/
theorem pareto_fisher {m a : ℝ} (hm : 0 < m) (ha : 0 < a) :
    fisher (fun θ : Fin 2 → ℝ => paretoPDF (θ 0) (θ 1)) ![m, a] 0 0 = a ^ 2 / m ^ 2 ∧
    fisher (fun θ : Fin 2 → ℝ => paretoPDF (θ 0) (θ 1)) ![m, a] 0 1 = 0 ∧
    fisher (fun θ : Fin 2 → ℝ => paretoPDF (θ 0) (θ 1)) ![m, a] 1 0 = 0 ∧
    fisher (fun θ : Fin 2 → ℝ => paretoPDF (θ 0) (θ 1)) ![m, a] 1 1 = 1 / a ^ 2 := by
  obtain ⟨-, hD⟩ := pareto_density hm ha
  obtain ⟨⟨l1, l2⟩, ⟨q1, q2⟩⟩ := pareto_log hm ha
  have key : ∀ (u v w : ℝ → ℝ), (∀ x, m < x → u x * v x = w x) →
      ∫ x, u x * v x * paretoPDF m a x = ∫ x, w x * paretoPDF m a x := fun u v w h => by
    refine integral_congr_ae ?_
    filter_upwards [compl_mem_ae_iff.2 ((countable_singleton m).measure_zero volume)] with x hx
    rcases lt_or_gt_of_ne (show x ≠ m from hx) with h' | h'
    · rw [paretoPDF, if_pos h', mul_zero, mul_zero]
    · rw [h x h']
  have i1 : Integrable (fun x => 1 / m * paretoPDF m a x) := hD.integrable.const_mul _
  have i2 : Integrable (fun x => a / m * (Real.log (x / m) * paretoPDF m a x)) := l1.const_mul _
  have i3 : Integrable (fun x => 1 / a ^ 2 * paretoPDF m a x) := hD.integrable.const_mul _
  have i4 : Integrable (fun x => 2 / a * (Real.log (x / m) * paretoPDF m a x)) := l1.const_mul _
  have i5 : Integrable (fun x => 1 / a ^ 2 * paretoPDF m a x - 2 / a * (Real.log (x / m) * paretoPDF m a x)) := i3.sub i4
  have off : ∫ x, (1 / m - a / m * Real.log (x / m)) * paretoPDF m a x = 0 := by
    rw [show (fun x => (1 / m - a / m * Real.log (x / m)) * paretoPDF m a x) = fun x => 1 / m * paretoPDF m a x -
      a / m * (Real.log (x / m) * paretoPDF m a x) by ext x; ring, integral_sub i1 i2, integral_const_mul,
      integral_const_mul, hD.total, l2]
    field_simp; ring
  unfold fisher
  simp only [Matrix.cons_val_zero, Matrix.cons_val_one, Function.update_self, ne_eq,
    zero_ne_one, one_ne_zero, not_false_eq_true, Function.update_of_ne]
  refine ⟨?_, ?_, ?_, ?_⟩
  · rw [key _ _ (fun _ => a ^ 2 / m ^ 2) fun x hx => by rw [pareto_dlog_m hm ha hx]; ring, integral_const_mul, hD.total, mul_one]
  · rw [key _ _ (fun x => 1 / m - a / m * Real.log (x / m)) fun x hx => by
      rw [pareto_dlog_m hm ha hx, pareto_dlog_a hm ha hx]; field_simp]
    exact off
  · rw [key _ _ (fun x => 1 / m - a / m * Real.log (x / m)) fun x hx => by
      rw [pareto_dlog_m hm ha hx, pareto_dlog_a hm ha hx]; field_simp]
    exact off
  · rw [key _ _ (fun x => 1 / a ^ 2 - 2 / a * Real.log (x / m) + Real.log (x / m) ^ 2) fun x hx => by
      rw [pareto_dlog_a hm ha hx]; ring]
    rw [show (fun x => (1 / a ^ 2 - 2 / a * Real.log (x / m) + Real.log (x / m) ^ 2) * paretoPDF m a x) = fun x =>
      1 / a ^ 2 * paretoPDF m a x - 2 / a * (Real.log (x / m) * paretoPDF m a x) + Real.log (x / m) ^ 2 * paretoPDF m a x
      by ext x; ring, integral_add i5 q1, integral_sub i3 i4, integral_const_mul, integral_const_mul, hD.total, l2, q2]
    field_simp; ring
end Rstat.Spec
