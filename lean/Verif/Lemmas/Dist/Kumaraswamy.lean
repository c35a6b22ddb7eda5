import Verif.Lemmas.BetaLog
import Verif.Spec.Families

/-! The Kumaraswamy law. -/
namespace Rstat.Spec
open MeasureTheory Filter Topology Set Real

/-- the unnormalised Beta kernel is largest at `p/(p+q)` -/
theorem beta_kernel_max {p q y : ℝ} (hp : 0 < p) (hq : 0 < q) (hy : 0 < y) (hy1 : y < 1) :
    y ^ p * (1 - y) ^ q ≤ (p / (p + q)) ^ p * (1 - p / (p + q)) ^ q := by
  have h1 : 0 < 1 - y := by linarith
  have hs : 0 < p + q := by linarith
  have e : 1 - p / (p + q) = q / (p + q) := by field_simp; ring
  have hz : 0 < p / (p + q) := by positivity
  have hw : 0 < q / (p + q) := by positivity
  rw [e, rpow_def_of_pos hy, rpow_def_of_pos h1, rpow_def_of_pos hz, rpow_def_of_pos hw, ← Real.exp_add, ← Real.exp_add,
    Real.exp_le_exp]
  have l1 := Real.log_le_sub_one_of_pos (div_pos hy hz)
  have l2 := Real.log_le_sub_one_of_pos (div_pos h1 hw)
  rw [Real.log_div hy.ne' hz.ne'] at l1
  rw [Real.log_div h1.ne' hw.ne'] at l2
  have m1 := mul_le_mul_of_nonneg_left l1 hp.le
  have m2 := mul_le_mul_of_nonneg_left l2 hq.le
  have e1 : p * (y / (p / (p + q)) - 1) = y * (p + q) - p := by field_simp
  have e2 : q * ((1 - y) / (q / (p + q)) - 1) = (1 - y) * (p + q) - q := by field_simp
  rw [e1] at m1; rw [e2] at m2
  linarith

theorem kuma_density {a b : ℝ} (ha : 0 < a) (hb : 0 < b) :
    IsCDF (kumaraswamyCDF a b) ∧ IsDensityOf (kumaraswamyPDF a b) (kumaraswamyCDF a b) := by
  refine clamp_density (a := 0) (b := 1) (G := fun x => 1 - (1 - x ^ a) ^ b)
    (g := fun x => a * b * x ^ (a - 1) * (1 - x ^ a) ^ (b - 1)) one_pos (fun x hx => ?_) (fun x hx => ?_) ?_ ?_ ?_
  · have h1 : 0 < 1 - x ^ a := sub_pos.2 (Real.rpow_lt_one hx.1.le hx.2 ha)
    have h := (((Real.hasDerivAt_rpow_const (p := a) (Or.inl hx.1.ne')).const_sub 1).rpow_const (p := b) (Or.inl h1.ne')).const_sub 1
    refine HasDerivAt.congr_deriv (f := fun x => 1 - (1 - x ^ a) ^ b) h ?_
    ring
  · have h1 : 0 < 1 - x ^ a := sub_pos.2 (Real.rpow_lt_one hx.1.le hx.2 ha)
    have := hx.1
    positivity
  · simp only [zero_rpow ha.ne', sub_zero, one_rpow, sub_self]
  · simp only [one_rpow, sub_self, zero_rpow hb.ne', sub_zero]
  · have h1 : Continuous fun x : ℝ => x ^ a := Real.continuous_rpow_const ha.le
    exact (continuous_const.sub ((Real.continuous_rpow_const hb.le).comp (continuous_const.sub h1))).continuousOn

theorem kuma_transfer {a b : ℝ} (ha : 0 < a) (hb : 0 < b) (h : ℝ → ℝ) :
    (Integrable (fun x => h x * kumaraswamyPDF a b x) ↔ IntegrableOn (fun u => h (u ^ (1 / a)) * (b * (1 - u) ^ (b - 1))) (Ioo 0 1)) ∧
    ∫ x, h x * kumaraswamyPDF a b x = ∫ u in Ioo 0 1, h (u ^ (1 / a)) * (b * (1 - u) ^ (b - 1)) := by
  have hr : 0 < 1 / a := by positivity
  have key : ∀ u : ℝ, 0 < u → (u ^ (1 / a)) ^ a = u := fun u hu => by
    rw [← rpow_mul hu.le, one_div_mul_cancel ha.ne', rpow_one]
  refine transfer (φ := fun u => u ^ (1 / a)) (φ' := fun u => 1 / a * u ^ (1 / a - 1)) measurableSet_Ioo
    (fun u hu => Real.hasDerivAt_rpow_const (Or.inl hu.1.ne')) (fun u hu v hv e => ?_) (fun u hu => ?_) ?_ h
  · have : (u ^ (1 / a)) ^ a = (v ^ (1 / a)) ^ a := congrArg (· ^ a) e
    rwa [key u hu.1, key v hv.1] at this
  · have h0 : 0 < u ^ (1 / a) := rpow_pos_of_pos hu.1 _
    have h1 : u ^ (1 / a) < 1 := rpow_lt_one hu.1.le hu.2 hr
    have := hu.1
    rw [abs_of_pos (by positivity), kumaraswamyPDF, if_neg (by push Not; exact ⟨h0, h1⟩), key u hu.1, ← rpow_mul hu.1.le,
      show 1 / a * (a - 1) = -(1 / a - 1) by field_simp; ring, rpow_neg hu.1.le]
    have : u ^ (1 / a - 1) ≠ 0 := (rpow_pos_of_pos hu.1 _).ne'
    field_simp
  · refine Eventually.of_forall fun x hx => ?_
    rw [kumaraswamyPDF, if_pos]
    by_contra hn
    push Not at hn
    exact hx ⟨x ^ a, ⟨rpow_pos_of_pos hn.1 _, rpow_lt_one hn.1.le hn.2 ha⟩, by
      simp only; rw [← rpow_mul hn.1.le, mul_one_div_cancel ha.ne', rpow_one]⟩

/-- raw moments `b B(1 + n/a, b)` -/
theorem kuma_raw {a b : ℝ} (ha : 0 < a) (hb : 0 < b) (n : ℕ) :
    HasCentral (kumaraswamyPDF a b) 0 n (b * Beta (1 + n / a) b) := by
  obtain ⟨h1, h2⟩ := kuma_transfer ha hb (fun x => x ^ n)
  have hB := beta_integral (a := 1 + n / a) (b := b) (by positivity) hb
  rw [add_sub_cancel_left] at hB
  have e : ∀ u ∈ Ioo (0:ℝ) 1, b * (u ^ ((n:ℝ) / a) * (1 - u) ^ (b - 1)) = (u ^ (1 / a)) ^ n * (b * (1 - u) ^ (b - 1)) :=
    fun u hu => by
      rw [← rpow_natCast (u ^ (1 / a)), ← rpow_mul hu.1.le, show 1 / a * (n:ℝ) = n / a by ring]; ring
  unfold HasCentral
  simp only [sub_zero]
  refine ⟨h1.2 (IntegrableOn.congr_fun (hB.1.const_mul b) e measurableSet_Ioo), ?_⟩
  rw [h2, ← setIntegral_congr_fun measurableSet_Ioo e, integral_const_mul, hB.2]

theorem Beta_one_left {b : ℝ} (hb : 0 < b) : Beta 1 b = 1 / b := by
  have := (Real.Gamma_pos_of_pos hb).ne'
  unfold Beta; rw [Real.Gamma_one, one_mul, add_comm, Real.Gamma_add_one hb.ne']; field_simp

/-- differential entropy -/
theorem kuma_entropy {a b : ℝ} (ha : 0 < a) (hb : 0 < b) :
    HasEntropy (kumaraswamyPDF a b)
      ((1 - 1 / b) + (1 - 1 / a) * (digamma (b + 1) - digamma 1) - Real.log (a * b)) := by
  have l1 := beta_log one_pos hb
  have l2 := beta_log' one_pos hb
  have l0 := beta_integral one_pos hb
  simp only [sub_self, rpow_zero, one_mul] at l0 l1 l2
  obtain ⟨h1, h2⟩ := kuma_transfer ha hb (fun x => Real.log (kumaraswamyPDF a b x))
  have e : ∀ u ∈ Ioo (0:ℝ) 1,
      b * Real.log (a * b) * (1 - u) ^ (b - 1) + b * ((a - 1) / a) * (Real.log u * (1 - u) ^ (b - 1)) +
        b * (b - 1) * (Real.log (1 - u) * (1 - u) ^ (b - 1)) =
      Real.log (kumaraswamyPDF a b (u ^ (1 / a))) * (b * (1 - u) ^ (b - 1)) := fun u hu => by
    have hu1 : 0 < 1 - u := by linarith [hu.2]
    have h0 : 0 < u ^ (1 / a) := rpow_pos_of_pos hu.1 _
    have h1 : u ^ (1 / a) < 1 := rpow_lt_one hu.1.le hu.2 (by positivity)
    rw [kumaraswamyPDF, if_neg (by push Not; exact ⟨h0, h1⟩), ← rpow_mul hu.1.le, ← rpow_mul hu.1.le,
      one_div_mul_cancel ha.ne', rpow_one, Real.log_mul (x := a * b * u ^ (1 / a * (a - 1))) (by have := hu.1; positivity) (by positivity),
      Real.log_mul (x := a * b) (by positivity) (by have := hu.1; positivity), Real.log_rpow hu.1, Real.log_rpow hu1]
    field_simp
  have j1 := Integrable.const_mul l0.1 (b * Real.log (a * b))
  have j2 := Integrable.const_mul l1.1 (b * ((a - 1) / a))
  have j3 := Integrable.const_mul l2.1 (b * (b - 1))
  have j12 : Integrable (fun u : ℝ => b * Real.log (a * b) * (1 - u) ^ (b - 1) + b * ((a - 1) / a) * (Real.log u * (1 - u) ^ (b - 1)))
    (volume.restrict (Ioo 0 1)) := j1.add j2
  have hi := h1.2 (IntegrableOn.congr_fun (j12.add j3) e measurableSet_Ioo)
  have hv := h2
  rw [← setIntegral_congr_fun measurableSet_Ioo e, integral_add j12 j3, integral_add j1 j2, integral_const_mul,
    integral_const_mul, integral_const_mul, l0.2, l1.2, l2.2, Beta_one_left hb, add_comm 1 b,
    digamma_add_one hb] at hv
  refine ⟨hi.congr (Eventually.of_forall fun x => mul_comm _ _), ?_⟩
  rw [show (fun x => kumaraswamyPDF a b x * Real.log (kumaraswamyPDF a b x)) =
    fun x => Real.log (kumaraswamyPDF a b x) * kumaraswamyPDF a b x from funext fun x => mul_comm _ _, hv, digamma_add_one hb]
  field_simp
  ring

theorem kuma_inside {a b x : ℝ} (h0 : 0 < x) (h1 : x < 1) :
    kumaraswamyPDF a b x = a * b * x ^ (a - 1) * (1 - x ^ a) ^ (b - 1) := by
  rw [kumaraswamyPDF, if_neg (by push Not; exact ⟨h0, h1⟩)]

theorem kuma_mode {a b : ℝ} (ha : 1 < a) (hb : 1 < b) :
    IsMode (kumaraswamyPDF a b) (((a - 1) / (a * b - 1)) ^ (1 / a)) := by
  have ha0 : 0 < a := by linarith
  have hb0 : 0 < b := by linarith
  have hab : 0 < a * b - 1 := by nlinarith
  have hy0 : 0 < (a - 1) / (a * b - 1) := div_pos (by linarith) hab
  have hy1 : (a - 1) / (a * b - 1) < 1 := (div_lt_one hab).2 (by nlinarith)
  have hx0 := rpow_pos_of_pos hy0 (1 / a)
  have hx1 : ((a - 1) / (a * b - 1)) ^ (1 / a) < 1 := rpow_lt_one hy0.le hy1 (by positivity)
  have key : ∀ x, 0 < x → x < 1 → kumaraswamyPDF a b x = a * b * ((x ^ a) ^ ((a - 1) / a) * (1 - x ^ a) ^ (b - 1)) :=
    fun x h0 h1 => by rw [kuma_inside h0 h1, ← rpow_mul h0.le, mul_div_cancel₀ _ ha0.ne']; ring
  intro x
  by_cases hx : x ≤ 0 ∨ 1 ≤ x
  · rw [kumaraswamyPDF, if_pos hx]; exact (kuma_density ha0 hb0).2.nonneg _
  · push Not at hx
    rw [key x hx.1 hx.2, key _ hx0 hx1, ← rpow_mul hy0.le, one_div_mul_cancel ha0.ne', rpow_one]
    have := beta_kernel_max (p := (a - 1) / a) (q := b - 1) (y := x ^ a) (div_pos (by linarith) ha0) (by linarith)
      (rpow_pos_of_pos hx.1 _) (rpow_lt_one hx.1.le hx.2 ha0)
    have hab' : a * b - 1 ≠ 0 := hab.ne'
    have e2 : (a - 1) / a + (b - 1) = (a * b - 1) / a := by field_simp; ring
    have e : (a - 1) / a / ((a - 1) / a + (b - 1)) = (a - 1) / (a * b - 1) := by
      rw [e2]; field_simp
    rw [e] at this
    gcongr

theorem kuma_antitone {b : ℝ} (hb : 1 ≤ b) : AntitoneOn (kumaraswamyPDF 1 b) (Ioo 0 1) := fun x hx y hy hxy => by
  rw [kuma_inside hx.1 hx.2, kuma_inside hy.1 hy.2]
  simp only [sub_self, rpow_zero, rpow_one]
  have : 0 ≤ 1 - y := by linarith [hy.2]
  have : (1 - y) ^ (b - 1) ≤ (1 - x) ^ (b - 1) := rpow_le_rpow this (by linarith) (by linarith)
  nlinarith

theorem kuma_monotone {a : ℝ} (ha : 1 ≤ a) : MonotoneOn (kumaraswamyPDF a 1) (Ioo 0 1) := fun x hx y hy hxy => by
  rw [kuma_inside hx.1 hx.2, kuma_inside hy.1 hy.2]
  simp only [sub_self, rpow_zero, mul_one]
  have : x ^ (a - 1) ≤ y ^ (a - 1) := rpow_le_rpow hx.1.le hxy (by linarith)
  nlinarith

theorem kuma_no_mode {a b : ℝ} (ha : 0 < a) (hb : 0 < b) (h : a < 1 ∨ b < 1) (m : ℝ) : ¬ IsMode (kumaraswamyPDF a b) m := by
  intro hm
  rcases h with h | h
  · have t1 : Tendsto (fun x : ℝ => x ^ (a - 1)) (𝓝[>] 0) atTop := by
      have := tendsto_rpow_neg_nhdsGT_zero (y := a - 1) (by linarith)
      exact this
    have t2 : Tendsto (fun x : ℝ => a * b * (1 - x ^ a) ^ (b - 1)) (𝓝[>] 0) (𝓝 (a * b)) := by
      have c1 : ContinuousAt (fun x : ℝ => 1 - x ^ a) 0 := continuousAt_const.sub (Real.continuousAt_rpow_const _ _ (Or.inr ha.le))
      have c2 : ContinuousAt (fun x : ℝ => a * b * (1 - x ^ a) ^ (b - 1)) 0 :=
        continuousAt_const.mul (c1.rpow_const (Or.inl (by rw [zero_rpow ha.ne']; norm_num)))
      have := c2.tendsto.mono_left (nhdsWithin_le_nhds (s := Ioi 0))
      rwa [zero_rpow ha.ne', sub_zero, one_rpow, mul_one] at this
    have t := t2.pos_mul_atTop (mul_pos ha hb) t1
    obtain ⟨x, hx, hx1⟩ := ((t.eventually_gt_atTop (kumaraswamyPDF a b m)).and (Ioo_mem_nhdsGT one_pos)).exists
    have := hm x
    rw [kuma_inside hx1.1 hx1.2] at this
    nlinarith
  · have t0 : Tendsto (fun x : ℝ => 1 - x ^ a) (𝓝[<] 1) (𝓝[>] 0) := by
      refine tendsto_nhdsWithin_iff.2 ⟨?_, ?_⟩
      · have c1 : ContinuousAt (fun x : ℝ => 1 - x ^ a) 1 := continuousAt_const.sub (Real.continuousAt_rpow_const _ _ (Or.inl one_ne_zero))
        have := c1.tendsto.mono_left (nhdsWithin_le_nhds (s := Iio 1))
        rwa [one_rpow, sub_self] at this
      · filter_upwards [Ioo_mem_nhdsLT one_pos] with x hx
        exact sub_pos.2 (Real.rpow_lt_one hx.1.le hx.2 ha)
    have t1 : Tendsto (fun x : ℝ => (1 - x ^ a) ^ (b - 1)) (𝓝[<] 1) atTop :=
      (tendsto_rpow_neg_nhdsGT_zero (y := b - 1) (by linarith)).comp t0
    have t2 : Tendsto (fun x : ℝ => a * b * x ^ (a - 1)) (𝓝[<] 1) (𝓝 (a * b)) := by
      have c2 : ContinuousAt (fun x : ℝ => a * b * x ^ (a - 1)) 1 :=
        continuousAt_const.mul (Real.continuousAt_rpow_const _ _ (Or.inl one_ne_zero))
      have := c2.tendsto.mono_left (nhdsWithin_le_nhds (s := Iio 1))
      rwa [one_rpow, mul_one] at this
    have t := t2.pos_mul_atTop (mul_pos ha hb) t1
    obtain ⟨x, hx, hx1⟩ := ((t.eventually_gt_atTop (kumaraswamyPDF a b m)).and (Ioo_mem_nhdsLT one_pos)).exists
    have := hm x
    rw [kuma_inside hx1.1 hx1.2] at this
    linarith

end Rstat.Spec
