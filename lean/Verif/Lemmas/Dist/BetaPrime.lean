import Verif.Lemmas.Dist.Beta2
import Verif.Lemmas.Dist.Pareto

/-! Moments and modes of the Beta prime law. -/
namespace Rstat.Spec
open MeasureTheory Real Set Filter Topology

theorem Beta_shift' {a b : ℝ} (ha : 0 < a) (hb : 1 < b) : Beta (a + 1) (b - 1) = a / (b - 1) * Beta a b := by
  have := Beta_shift ha (b := b - 1) (by linarith)
  rwa [sub_add_cancel] at this

theorem bp_raws {a b : ℝ} (ha : 0 < a) :
    (1 < b → HasMean (betaPrimePDF a b) (a / (b - 1))) ∧
    (2 < b → HasCentral (betaPrimePDF a b) 0 2 (a * (a + 1) / ((b - 1) * (b - 2)))) ∧
    (3 < b → HasCentral (betaPrimePDF a b) 0 3 (a * (a + 1) * (a + 2) / ((b - 1) * (b - 2) * (b - 3)))) ∧
    (4 < b → HasCentral (betaPrimePDF a b) 0 4 (a * (a + 1) * (a + 2) * (a + 3) / ((b - 1) * (b - 2) * (b - 3) * (b - 4)))) := by
  have s1 : 1 < b → Beta (a + 1) (b - 1) / Beta a b = a / (b - 1) := fun h => by
    rw [Beta_shift' ha h, mul_div_cancel_right₀ _ (Beta_pos ha (by linarith)).ne']
  have s2 : 2 < b → Beta (a + 2) (b - 2) / Beta a b = a * (a + 1) / ((b - 1) * (b - 2)) := fun h => by
    have e := Beta_shift' (a := a + 1) (b := b - 1) (by linarith) (by linarith)
    rw [show a + 1 + 1 = a + 2 by ring, show b - 1 - 1 = b - 2 by ring] at e
    rw [e, mul_div_assoc, s1 (by linarith), div_mul_div_comm]
    congr 1 <;> ring
  have s3 : 3 < b → Beta (a + 3) (b - 3) / Beta a b = a * (a + 1) * (a + 2) / ((b - 1) * (b - 2) * (b - 3)) := fun h => by
    have e := Beta_shift' (a := a + 2) (b := b - 2) (by linarith) (by linarith)
    rw [show a + 2 + 1 = a + 3 by ring, show b - 2 - 1 = b - 3 by ring] at e
    rw [e, mul_div_assoc, s2 (by linarith), div_mul_div_comm]
    congr 1 <;> ring
  have s4 : 4 < b → Beta (a + 4) (b - 4) / Beta a b = a * (a + 1) * (a + 2) * (a + 3) / ((b - 1) * (b - 2) * (b - 3) * (b - 4)) := fun h => by
    have e := Beta_shift' (a := a + 3) (b := b - 3) (by linarith) (by linarith)
    rw [show a + 3 + 1 = a + 4 by ring, show b - 3 - 1 = b - 4 by ring] at e
    rw [e, mul_div_assoc, s3 (by linarith), div_mul_div_comm]
    congr 1 <;> ring
  refine ⟨fun h => hasMean_iff_raw.2 ?_, fun h => ?_, fun h => ?_, fun h => ?_⟩
  · have := bp_raw ha (b := b) (n := 1) (by push_cast; exact h)
    rw [← s1 h]; exact_mod_cast this
  · have := bp_raw ha (b := b) (n := 2) (by push_cast; exact h)
    rw [← s2 h]; exact_mod_cast this
  · have := bp_raw ha (b := b) (n := 3) (by push_cast; exact h)
    rw [← s3 h]; exact_mod_cast this
  · have := bp_raw ha (b := b) (n := 4) (by push_cast; exact h)
    rw [← s4 h]; exact_mod_cast this

theorem bp_central_infinite {a b : ℝ} (ha : 0 < a) (hb0 : 0 < b) {n : ℕ} (hb : b ≤ n) (m v : ℝ) :
    ¬ HasCentral (betaPrimePDF a b) m n v := fun h => by
  have h0 := raw_integrable_of_central (bp_density ha hb0).2.nonneg (bp_density ha hb0).2.integrable h.1
  exact bp_raw_infinite ha hb0 hb (∫ x, (x - 0) ^ n * betaPrimePDF a b x) ⟨by simpa using h0, rfl⟩

theorem bp_meanVar {a b : ℝ} (ha : 0 < a) (hb : 2 < b) :
    HasMeanVar (betaPrimePDF a b) (a / (b - 1)) (a * (a + b - 1) / ((b - 2) * (b - 1) ^ 2)) := by
  obtain ⟨r1, r2, r3, r4⟩ := bp_raws (b := b) ha
  obtain ⟨_, hD⟩ := bp_density ha (by linarith : 0 < b)
  have n1 : b - 1 ≠ 0 := by linarith
  have n2 : b - 2 ≠ 0 := by linarith
  refine ⟨r1 (by linarith), (central2 hD.integrable hD.total (r1 (by linarith)) (r2 hb)).congr_val ?_⟩
  field_simp
  ring

theorem bp_var_eq {a b : ℝ} (hb : 2 < b) : a * (a + 1) / ((b - 1) * (b - 2)) - (a / (b - 1)) ^ 2 = a * (a + b - 1) / ((b - 2) * (b - 1) ^ 2) := by
  have n1 : b - 1 ≠ 0 := by linarith
  have n2 : b - 2 ≠ 0 := by linarith
  field_simp
  ring

theorem bp_skew {a b : ℝ} (ha : 0 < a) (hb : 3 < b) :
    HasSkew (betaPrimePDF a b) (2 * (2 * a + (b - 1)) / (b - 3) * Real.sqrt ((b - 2) / (a * (a + (b - 1))))) := by
  obtain ⟨r1, r2, r3, r4⟩ := bp_raws (b := b) ha
  obtain ⟨_, hD⟩ := bp_density ha (by linarith : 0 < b)
  have n1 : 0 < b - 1 := by linarith
  have n2 : 0 < b - 2 := by linarith
  have n3 : 0 < b - 3 := by linarith
  have p : 0 < a + (b - 1) := by linarith
  obtain ⟨hv, m2, m3⟩ := skew_of_raw hD (r1 (by linarith)) (r2 (by linarith)) (r3 hb)
  convert m3 using 1
  rw [bp_var_eq (by linarith)]
  obtain ⟨s, hs, hs2⟩ : ∃ s : ℝ, 0 < s ∧ s ^ 2 = (b - 2) / (a * (a + (b - 1))) := ⟨_, Real.sqrt_pos.2 (by positivity), Real.sq_sqrt (by positivity)⟩
  have e1 : Real.sqrt ((b - 2) / (a * (a + (b - 1)))) = s := by rw [← hs2, Real.sqrt_sq hs.le]
  have e2 : Real.sqrt (a * (a + b - 1) / ((b - 2) * (b - 1) ^ 2)) = 1 / ((b - 1) * s) := by
    rw [show a * (a + b - 1) / ((b - 2) * (b - 1) ^ 2) = (1 / ((b - 1) * s)) ^ 2 by
      rw [div_pow, mul_pow, hs2, add_sub_assoc]; field_simp, Real.sqrt_sq (by positivity)]
  rw [e1, e2]
  have e3 : (1 / ((b - 1) * s)) ^ 3 = 1 / ((b - 1) ^ 3 * (s ^ 2 * s)) := by rw [div_pow, mul_pow, one_pow, pow_succ s 2]
  rw [e3, hs2]
  field_simp
  ring

theorem bp_kurt {a b : ℝ} (ha : 0 < a) (hb : 4 < b) :
    HasKurt (betaPrimePDF a b) (3 + 6 * (a * (a + b - 1) * (5 * b - 11) + (b - 1) ^ 2 * (b - 2)) / (a * (a + b - 1) * (b - 3) * (b - 4))) := by
  obtain ⟨r1, r2, r3, r4⟩ := bp_raws (b := b) ha
  obtain ⟨_, hD⟩ := bp_density ha (by linarith : 0 < b)
  have n1 : b - 1 ≠ 0 := by linarith
  have n2 : b - 2 ≠ 0 := by linarith
  have n3 : b - 3 ≠ 0 := by linarith
  have n4 : b - 4 ≠ 0 := by linarith
  have p : a + b - 1 ≠ 0 := by linarith
  obtain ⟨hv, m2, m3, m4⟩ := moments_of_raw hD (r1 (by linarith)) (r2 (by linarith)) (r3 (by linarith)) (r4 hb)
  convert m4 using 1
  rw [bp_var_eq (by linarith)]
  field_simp
  ring

theorem bp_pos_eq {a b x : ℝ} (hx : 0 < x) : betaPrimePDF a b x = (x / (1 + x)) ^ (a - 1) * (1 - x / (1 + x)) ^ (b + 1) / Beta a b := by
  have h1 : 0 < 1 + x := by linarith
  rw [betaPrimePDF, if_neg (not_le.2 hx), show 1 - x / (1 + x) = (1 + x)⁻¹ by field_simp; ring, Real.inv_rpow h1.le, ← Real.rpow_neg h1.le,
    Real.div_rpow hx.le h1.le, div_mul_eq_mul_div, mul_div_assoc (x ^ (a - 1)) ((1 + x) ^ (-(b + 1))), ← Real.rpow_sub h1, show -(b + 1) - (a - 1) = -a - b by ring]

theorem bp_mode {a b : ℝ} (ha : 1 < a) (hb : 0 < b) : IsMode (betaPrimePDF a b) ((a - 1) / (b + 1)) := fun x => by
  have hB := Beta_pos (by linarith : 0 < a) hb
  have hm : 0 < (a - 1) / (b + 1) := div_pos (by linarith) (by linarith)
  have hq : (a - 1) / (b + 1) / (1 + (a - 1) / (b + 1)) = (a - 1) / ((a - 1) + (b + 1)) := by
    have h1 : a - 1 + (b + 1) ≠ 0 := by linarith
    have h2 : b + 1 ≠ 0 := by linarith
    have h3 : 1 + (a - 1) / (b + 1) = (a - 1 + (b + 1)) / (b + 1) := by field_simp; ring
    rw [h3, div_div_div_cancel_right₀ h2]
  rw [bp_pos_eq hm, hq]
  have hp : 0 < (a - 1) + (b + 1) := by linarith
  rcases le_or_gt x 0 with h | h
  · rw [betaPrimePDF, if_pos h]
    have h1 : 0 < (a - 1) / ((a - 1) + (b + 1)) := div_pos (by linarith) hp
    have h2 : 0 < 1 - (a - 1) / ((a - 1) + (b + 1)) := by rw [sub_pos, div_lt_one hp]; linarith
    positivity
  · rw [bp_pos_eq h]
    have := beta_kernel_max (p := a - 1) (q := b + 1) (y := x / (1 + x)) (by linarith) (by linarith) (by positivity)
      ((div_lt_one (by linarith)).2 (by linarith))
    gcongr

/-- for `a ≤ 1` the density decreases on the support -/
theorem bp_antitone {a b : ℝ} (ha : 0 < a) (h1 : a ≤ 1) (hb : 0 < b) : AntitoneOn (betaPrimePDF a b) (Ioi 0) := fun x hx y hy hxy => by
  have hB := Beta_pos ha hb
  have hx : 0 < x := hx
  have hy : 0 < y := hy
  rw [betaPrimePDF, if_neg (not_le.2 hy), betaPrimePDF, if_neg (not_le.2 hx)]
  have p1 : y ^ (a - 1) ≤ x ^ (a - 1) := rpow_le_rpow_of_nonpos hx hxy (by linarith)
  have p2 : (1 + y) ^ (-a - b) ≤ (1 + x) ^ (-a - b) := rpow_le_rpow_of_nonpos (by linarith) (by linarith) (by linarith)
  gcongr

theorem bp_zero_top {a b : ℝ} (ha : 0 < a) (h1 : a < 1) (hb : 0 < b) : Tendsto (betaPrimePDF a b) (𝓝[>] 0) atTop := by
  have hB := Beta_pos ha hb
  have t1 : Tendsto (fun x : ℝ => x ^ (a - 1)) (𝓝[>] 0) atTop := tendsto_rpow_neg_nhdsGT_zero (y := a - 1) (by linarith)
  have t2 : Tendsto (fun x : ℝ => (1 + x) ^ (-a - b) / Beta a b) (𝓝[>] 0) (𝓝 (1 / Beta a b)) := by
    have c : ContinuousAt (fun x : ℝ => (1 + x) ^ (-a - b) / Beta a b) 0 :=
      (ContinuousAt.rpow_const (continuousAt_const.add continuousAt_id) (Or.inl (by norm_num))).div_const _
    have := c.tendsto.mono_left (nhdsWithin_le_nhds (s := Ioi 0))
    rwa [add_zero, one_rpow] at this
  have t := t2.pos_mul_atTop (by positivity) t1
  refine t.congr' ?_
  filter_upwards [self_mem_nhdsWithin] with x hx
  rw [betaPrimePDF, if_neg (not_le.2 hx)]; ring
end Rstat.Spec
