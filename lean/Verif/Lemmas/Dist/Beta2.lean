import Verif.Lemmas.Dist.Beta
import Verif.Lemmas.Dist.Kumaraswamy

/-! More about the Beta law: reflection and special cases of the incomplete Beta function, behaviour at the ends of the
unit interval, logarithm of the density. -/
namespace Rstat.Spec
open MeasureTheory Real Set Filter Topology

theorem betaI_reflect {a b x : ℝ} (ha : 0 < a) (hb : 0 < b) (h0 : 0 ≤ x) (h1 : x ≤ 1) :
    betaI (1 - x) b a = 1 - betaI x a b := by
  have e1 := betaI_one ha hb
  unfold betaI at *
  have hB := (Beta_pos ha hb).ne'
  rw [Beta_symm b a]
  have hi := beta_intervalIntegrable ha hb zero_le_one le_rfl
  have hi1 := beta_intervalIntegrable ha hb h0 h1
  have hi2 : IntervalIntegrable (fun t : ℝ => t ^ (a - 1) * (1 - t) ^ (b - 1)) volume x 1 := hi1.symm.trans hi
  have e2 := intervalIntegral.integral_comp_sub_left (a := x) (b := 1)
    (fun t : ℝ => t ^ (b - 1) * (1 - t) ^ (a - 1)) (1:ℝ)
  rw [sub_self] at e2
  rw [← e2, show (fun t : ℝ => (1 - t) ^ (b - 1) * (1 - (1 - t)) ^ (a - 1)) = fun t : ℝ => t ^ (a - 1) * (1 - t) ^ (b - 1) by
    ext t; rw [sub_sub_cancel, mul_comm]]
  have e3 := intervalIntegral.integral_add_adjacent_intervals hi1 hi2
  rw [div_eq_one_iff_eq hB] at e1
  rw [e1] at e3
  rw [eq_sub_iff_add_eq, ← add_div, add_comm, e3, div_self hB]

theorem betaI_half {a : ℝ} (ha : 0 < a) : betaI (1 / 2) a a = 1 / 2 := by
  have h := betaI_reflect ha ha (x := 1 / 2) (by norm_num) (by norm_num)
  rw [show (1:ℝ) - 1 / 2 = 1 / 2 by norm_num] at h
  linarith

theorem betaI_b_one {a x : ℝ} (ha : 0 < a) (_hx : 0 ≤ x) : betaI x a 1 = x ^ a := by
  unfold betaI
  simp only [sub_self, rpow_zero, mul_one]
  rw [integral_rpow (Or.inl (by linarith)), Beta_symm, Beta_one_left ha, sub_add_cancel, zero_rpow ha.ne', sub_zero]
  field_simp

theorem betaI_a_one {b x : ℝ} (hb : 0 < b) (h0 : 0 ≤ x) (h1 : x ≤ 1) : betaI x 1 b = 1 - (1 - x) ^ b := by
  have h := betaI_reflect hb one_pos (x := 1 - x) (by linarith) (by linarith)
  rw [sub_sub_cancel] at h
  rw [h, betaI_b_one hb (by linarith)]

theorem betaI_b_two {a x : ℝ} (ha : 0 < a) (hx : 0 < x) : betaI x a 2 = x ^ a * (a + 1 - a * x) := by
  unfold betaI
  have e : ∀ t ∈ uIcc 0 x, t ^ (a - 1) * (1 - t) ^ ((2:ℝ) - 1) = t ^ (a - 1) - t ^ a := fun t ht => by
    rw [uIcc_of_le hx.le] at ht
    rw [show (2:ℝ) - 1 = 1 by norm_num, rpow_one]
    rcases eq_or_lt_of_le ht.1 with h | h
    · rw [← h, zero_rpow ha.ne']; simp
    · have := rpow_sub_one h.ne' a
      rw [this]; field_simp
  rw [intervalIntegral.integral_congr e, intervalIntegral.integral_sub
    (intervalIntegral.intervalIntegrable_rpow' (by linarith)) (intervalIntegral.intervalIntegrable_rpow' (by linarith)),
    integral_rpow (Or.inl (by linarith)), integral_rpow (Or.inl (by linarith)), sub_add_cancel, zero_rpow ha.ne',
    zero_rpow (by linarith), rpow_add_one hx.ne']
  have hB : Beta a 2 = 1 / (a * (a + 1)) := by
    rw [Beta_symm, show (2:ℝ) = 1 + 1 by norm_num, Beta_succ one_pos ha, Beta_one_left ha]
    field_simp; ring
  rw [hB]
  field_simp
  ring

/-- the distribution function takes the value 1/2 exactly once -/
theorem betaCDF_inside {a b x : ℝ} (h0 : 0 ≤ x) (h1 : x < 1) : betaCDF a b x = betaI x a b := by
  rw [betaCDF, if_neg (not_lt.2 h0), if_neg (not_le.2 h1)]

theorem betaW_zero_top {a b : ℝ} (ha : 0 < a) (hb : 0 < b) (h : a < 1) : Tendsto (betaW a b) (𝓝[>] 0) atTop := by
  have hB := Beta_pos ha hb
  have t1 : Tendsto (fun x : ℝ => x ^ (a - 1)) (𝓝[>] 0) atTop := tendsto_rpow_neg_nhdsGT_zero (y := a - 1) (by linarith)
  have t2 : Tendsto (fun x : ℝ => (1 - x) ^ (b - 1) / Beta a b) (𝓝[>] 0) (𝓝 (1 / Beta a b)) := by
    have c : ContinuousAt (fun x : ℝ => (1 - x) ^ (b - 1) / Beta a b) 0 :=
      (ContinuousAt.rpow_const (continuousAt_const.sub continuousAt_id) (Or.inl (by norm_num))).div_const _
    have := c.tendsto.mono_left (nhdsWithin_le_nhds (s := Ioi 0))
    rwa [sub_zero, one_rpow] at this
  have t := t2.pos_mul_atTop (by positivity) t1
  refine t.congr fun x => ?_
  unfold betaW; ring

theorem betaW_reflect (a b u : ℝ) : betaW a b (1 - u) = betaW b a u := by
  unfold betaW; rw [sub_sub_cancel, Beta_symm]; ring

theorem betaW_one_top {a b : ℝ} (ha : 0 < a) (hb : 0 < b) (h : b < 1) : Tendsto (betaW a b) (𝓝[<] 1) atTop := by
  have t0 : Tendsto (fun x : ℝ => 1 - x) (𝓝[<] 1) (𝓝[>] 0) := by
    refine tendsto_nhdsWithin_iff.2 ⟨?_, ?_⟩
    · have c1 : ContinuousAt (fun x : ℝ => 1 - x) 1 := continuousAt_const.sub continuousAt_id
      have := c1.tendsto.mono_left (nhdsWithin_le_nhds (s := Iio 1))
      rwa [sub_self] at this
    · filter_upwards [Ioo_mem_nhdsLT one_pos] with x hx
      exact sub_pos.2 hx.2
  refine ((betaW_zero_top hb ha h).comp t0).congr fun x => ?_
  simp only [Function.comp_apply, betaW_reflect]

/-- with `a ≤ 1 ≤ b` the density decreases on the open unit interval -/
theorem betaW_antitone {a b : ℝ} (ha : 0 < a) (h1 : a ≤ 1) (h2 : 1 ≤ b) : AntitoneOn (betaW a b) (Ioo 0 1) := fun x hx y hy hxy => by
  have hB := Beta_pos ha (by linarith : (0:ℝ) < b)
  have y1 : 0 < 1 - y := by linarith [hy.2]
  have p1 : y ^ (a - 1) ≤ x ^ (a - 1) := rpow_le_rpow_of_nonpos hx.1 hxy (by linarith)
  have p2 : (1 - y) ^ (b - 1) ≤ (1 - x) ^ (b - 1) := rpow_le_rpow y1.le (by linarith) (by linarith)
  unfold betaW
  have := rpow_nonneg hx.1.le (a - 1)
  have := rpow_nonneg y1.le (b - 1)
  gcongr

theorem beta_log_pdf {a b x : ℝ} (ha : 0 < a) (hb : 0 < b) (hx : x ∈ Ioo (0:ℝ) 1) :
    Real.log (ProbabilityTheory.betaPDFReal a b x) = (a - 1) * Real.log x + (b - 1) * Real.log (1 - x) - Real.log (Beta a b) := by
  have h1 : 0 < 1 - x := by linarith [hx.2]
  have h0 := hx.1
  have hB := Beta_pos ha hb
  rw [betaPDF_inside hx, betaW, Real.log_div (by positivity) hB.ne', Real.log_mul (by positivity) (by positivity),
    Real.log_rpow h0, Real.log_rpow h1]

theorem beta_logLik {a b : ℝ} (ha : 0 < a) (hb : 0 < b) (xs : List ℝ) (hx : ∀ x ∈ xs, x ∈ Ioo (0:ℝ) 1) :
    logLik (ProbabilityTheory.betaPDFReal a b) xs = (a - 1) * (xs.map Real.log).sum +
      (b - 1) * (xs.map fun x => Real.log (1 - x)).sum - xs.length * Real.log (Beta a b) := by
  unfold logLik
  induction xs with
  | nil => simp
  | cons x xs ih =>
    rw [List.map_cons, List.sum_cons, ih fun y hy => hx y (by simp [hy]), beta_log_pdf ha hb (hx x (by simp)), List.map_cons,
      List.sum_cons, List.map_cons, List.sum_cons, List.length_cons]
    push_cast; ring

theorem log_Beta_hasDerivAt {a b : ℝ} (ha : 0 < a) (hb : 0 < b) :
    HasDerivAt (fun t => Real.log (Beta t b)) (digamma a - digamma (a + b)) a := by
  have hB := (Beta_pos ha hb).ne'
  refine HasDerivAt.congr_deriv ((Beta_hasDerivAt ha hb).log hB) ?_
  field_simp

theorem beta_logLik_derivs {a b : ℝ} (ha : 0 < a) (hb : 0 < b) (xs : List ℝ) (hx : ∀ x ∈ xs, x ∈ Ioo (0:ℝ) 1) :
    HasDerivAt (fun t => logLik (ProbabilityTheory.betaPDFReal t b) xs)
      ((xs.map Real.log).sum - xs.length * (digamma a - digamma (a + b))) a ∧
    HasDerivAt (fun t => logLik (ProbabilityTheory.betaPDFReal a t) xs)
      ((xs.map fun x => Real.log (1 - x)).sum - xs.length * (digamma b - digamma (a + b))) b := by
  constructor
  · have h1 := (((((hasDerivAt_id a).sub_const 1).mul_const (xs.map Real.log).sum).add_const
      ((b - 1) * (xs.map fun x => Real.log (1 - x)).sum)).sub ((log_Beta_hasDerivAt ha hb).const_mul (xs.length : ℝ)))
    refine HasDerivAt.congr_of_eventuallyEq (h1.congr_deriv (by ring)) ?_
    filter_upwards [lt_mem_nhds ha] with t ht
    rw [beta_logLik ht hb xs hx]; rfl
  · have hd := log_Beta_hasDerivAt hb ha
    rw [add_comm b a] at hd
    have h1 := (((((hasDerivAt_id b).sub_const 1).mul_const (xs.map fun x => Real.log (1 - x)).sum).const_add
      ((a - 1) * (xs.map Real.log).sum)).sub (hd.const_mul (xs.length : ℝ)))
    refine HasDerivAt.congr_of_eventuallyEq (h1.congr_deriv (by ring)) ?_
    filter_upwards [lt_mem_nhds hb] with t ht
    rw [beta_logLik ha ht xs hx, Beta_symm a t]; rfl
end Rstat.Spec
