import Verif.Lemmas.Moments
import Verif.Spec.Families
import Mathlib.Analysis.SpecialFunctions.Trigonometric.InverseDeriv
import Mathlib.Analysis.SpecialFunctions.Integrals.LogTrigonometric
import Mathlib.MeasureTheory.Function.JacobianOneDim

namespace Rstat.Spec
open MeasureTheory Filter Topology Set Real

theorem log_cos_integral : IntervalIntegrable (fun x => Real.log (cos x)) volume (-(π / 2)) (π / 2) ∧
    ∫ x in (-(π / 2))..(π / 2), Real.log (cos x) = -Real.log 2 * π := by
  constructor
  · have : IntervalIntegrable (fun x => Real.log (sin x)) volume 0 π := by
      have := intervalIntegrable_log_sin (a := 0) (b := π)
      exact this
    have h2 := this.comp_add_right (π / 2)
    rw [show 0 - π / 2 = -(π / 2) by ring, show π - π / 2 = π / 2 by ring] at h2
    simpa [sin_add_pi_div_two] using h2
  · rw [← integral_log_sin_zero_pi]
    have := intervalIntegral.integral_comp_add_right (a := -(π / 2)) (b := π / 2) (fun x => Real.log (sin x)) (π / 2)
    rw [show -(π / 2) + π / 2 = 0 by ring, show π / 2 + π / 2 = π by ring] at this
    rw [← this]; simp [sin_add_pi_div_two]

theorem arcsine_density {a b : ℝ} (hab : a < b) :
    IsCDF (arcsineCDF a b) ∧ IsDensityOf (arcsinePDF a b) (arcsineCDF a b) := by
  have hw : 0 < b - a := sub_pos.2 hab
  refine clamp_density (G := fun x => 2 / π * arcsin (√((x - a) / (b - a)))) (g := fun x => 1 / (π * √((x - a) * (b - x))))
    hab (fun x hx => ?_) (fun x hx => by positivity) ?_ ?_ (by fun_prop)
  · have h1 : 0 < x - a := sub_pos.2 hx.1
    have h2 : 0 < b - x := sub_pos.2 hx.2
    have hz : 0 < (x - a) / (b - a) := by positivity
    have hz1 : (x - a) / (b - a) < 1 := by rw [div_lt_one hw]; linarith
    have d0 : HasDerivAt (fun x => (x - a) / (b - a)) (1 / (b - a)) x := ((hasDerivAt_id x).sub_const a).div_const _
    have d1 := d0.sqrt hz.ne'
    have hs0 : 0 < √((x - a) / (b - a)) := Real.sqrt_pos.2 hz
    have hs1 : √((x - a) / (b - a)) < 1 := by rw [Real.sqrt_lt' one_pos]; simpa using hz1
    have d2 := (Real.hasDerivAt_arcsin (by linarith) hs1.ne).comp x d1
    have d3 := d2.const_mul (2 / π)
    refine HasDerivAt.congr_deriv (f := fun x => 2 / π * arcsin (√((x - a) / (b - a)))) d3 ?_
    rw [Real.sq_sqrt hz.le, show 1 - (x - a) / (b - a) = (b - x) / (b - a) by field_simp; ring,
      Real.sqrt_div h2.le, Real.sqrt_div h1.le, Real.sqrt_mul h1.le]
    have s1 := Real.sqrt_pos.2 h1
    have s2 := Real.sqrt_pos.2 h2
    have s3 := Real.sqrt_pos.2 hw
    have s4 := Real.sq_sqrt hw.le
    field_simp
    rw [s4]
  · simp
  · simp [div_self hw.ne']

theorem arcsine_locScale {a b : ℝ} (hab : a < b) : arcsinePDF a b = locScale a (b - a) (arcsinePDF 0 1) := by
  have hw : 0 < b - a := sub_pos.2 hab
  ext x
  unfold locScale arcsinePDF
  have c1 : (x - a) / (b - a) ≤ 0 ↔ x ≤ a := by rw [div_le_iff₀ hw]; constructor <;> intro h <;> linarith
  have c2 : 1 ≤ (x - a) / (b - a) ↔ b ≤ x := by rw [le_div_iff₀ hw]; constructor <;> intro h <;> linarith
  simp only [c1, c2]
  split_ifs with h
  · rw [zero_div]
  · push Not at h
    have h1 : 0 < x - a := sub_pos.2 h.1
    have h2 : 0 < b - x := sub_pos.2 h.2
    rw [show ((x - a) / (b - a) - 0) * (1 - (x - a) / (b - a)) = (x - a) * (b - x) / (b - a) ^ 2 by field_simp; ring,
      Real.sqrt_div (by positivity), Real.sqrt_sq hw.le]
    have s1 := Real.sqrt_pos.2 (mul_pos h1 h2)
    field_simp

/-- moments of the standard arcsine law about its centre -/
theorem arcsine_central (k : ℕ) : HasCentral (arcsinePDF 0 1) (1 / 2) k (∫ x in (0:ℝ)..1, (x - 1 / 2) ^ k * arcsinePDF 0 1 x) ∧
    IntervalIntegrable (fun x => (x - 1 / 2) ^ k * arcsinePDF 0 1 x) volume 0 1 := by
  have hi : IntervalIntegrable (fun x => (x - 1 / 2) ^ k * arcsinePDF 0 1 x) volume 0 1 :=
    ((arcsine_density zero_lt_one).2.integrable.intervalIntegrable).continuousOn_mul (by fun_prop)
  refine ⟨?_, hi⟩
  exact supp_integral zero_le_one (fun x _ => rfl) (fun x hx => by
    have : arcsinePDF 0 1 x = 0 := if_pos (hx.imp le_of_lt le_of_lt)
    rw [this, mul_zero]) hi

theorem arcsine_rec (k : ℕ) :
    ((k : ℝ) + 1) / 4 * ∫ x in (0:ℝ)..1, (x - 1 / 2) ^ k * arcsinePDF 0 1 x =
      ((k : ℝ) + 2) * ∫ x in (0:ℝ)..1, (x - 1 / 2) ^ (k + 2) * arcsinePDF 0 1 x := by
  have hd : ∀ x ∈ Ioo (0:ℝ) 1, HasDerivAt (fun x => (x - 1 / 2) ^ (k + 1) * √(x * (1 - x)) / π)
      (((k : ℝ) + 1) / 4 * ((x - 1 / 2) ^ k * arcsinePDF 0 1 x) - ((k : ℝ) + 2) * ((x - 1 / 2) ^ (k + 2) * arcsinePDF 0 1 x)) x := by
    intro x hx
    have h1 : 0 < x := hx.1
    have h2 : 0 < 1 - x := sub_pos.2 hx.2
    have hq : 0 < x * (1 - x) := mul_pos h1 h2
    have d1 : HasDerivAt (fun x : ℝ => x * (1 - x)) (1 * (1 - x) + x * (-1)) x :=
      (hasDerivAt_id x).mul ((hasDerivAt_id x).const_sub 1)
    have d2 := d1.sqrt hq.ne'
    have d3 : HasDerivAt (fun x : ℝ => (x - 1 / 2) ^ (k + 1)) (((k + 1 : ℕ) : ℝ) * (x - 1 / 2) ^ k * 1) x :=
      ((hasDerivAt_id x).sub_const (1 / 2)).pow (k + 1)
    have d4 := (d3.mul d2).div_const π
    refine HasDerivAt.congr_deriv (f := fun x => (x - 1 / 2) ^ (k + 1) * √(x * (1 - x)) / π) d4 ?_
    have hp : arcsinePDF 0 1 x = 1 / (π * √(x * (1 - x))) := by
      unfold arcsinePDF; rw [if_neg (by push Not; exact hx), sub_zero]
    rw [hp]
    have s := Real.sqrt_pos.2 hq
    have s2 := Real.sq_sqrt hq.le
    push_cast
    set y := √(x * (1 - x))
    field_simp
    rw [pow_succ ((x * 2 - 1) / 2) k, pow_add, s2]
    ring
  have h := intervalIntegral.integral_eq_sub_of_hasDerivAt_of_le (f := fun x => (x - 1 / 2) ^ (k + 1) * √(x * (1 - x)) / π)
    (zero_le_one) (by fun_prop) hd
    (((arcsine_central k).2.const_mul _).sub ((arcsine_central (k + 2)).2.const_mul _))
  rw [intervalIntegral.integral_sub ((arcsine_central k).2.const_mul _) ((arcsine_central (k + 2)).2.const_mul _),
    intervalIntegral.integral_const_mul, intervalIntegral.integral_const_mul] at h
  simp at h
  simp only [one_div]
  linarith

theorem arcsine_zero : ∫ x in (0:ℝ)..1, (x - 1 / 2) ^ 0 * arcsinePDF 0 1 x = 1 := by
  rw [← (arcsine_central 0).1.2]
  simpa using (arcsine_density (zero_lt_one' ℝ)).2.total
theorem arcsine_one : ∫ x in (0:ℝ)..1, (x - 1 / 2) ^ 1 * arcsinePDF 0 1 x = 0 := by
  have h : ∫ x in (0:ℝ)..1, (fun x => (x - 1 / 2) ^ 1 * arcsinePDF 0 1 x) (1 - x) =
      ∫ x in (0:ℝ)..1, (x - 1 / 2) ^ 1 * arcsinePDF 0 1 x := by
    rw [intervalIntegral.integral_comp_sub_left (fun x => (x - 1 / 2) ^ 1 * arcsinePDF 0 1 x) 1]; simp
  have e : ∀ x, arcsinePDF 0 1 (1 - x) = arcsinePDF 0 1 x := by
    intro x; unfold arcsinePDF
    refine if_congr ?_ rfl ?_
    · constructor
      · rintro (h | h) <;> [exact Or.inr (by linarith); exact Or.inl (by linarith)]
      · rintro (h | h) <;> [exact Or.inr (by linarith); exact Or.inl (by linarith)]
    · congr 3; ring
  have h2 : ∫ x in (0:ℝ)..1, (fun x => (x - 1 / 2) ^ 1 * arcsinePDF 0 1 x) (1 - x) =
      -∫ x in (0:ℝ)..1, (x - 1 / 2) ^ 1 * arcsinePDF 0 1 x := by
    rw [← intervalIntegral.integral_neg]; congr 1; ext x; simp only [e]; ring
  linarith
theorem arcsine_std_moments : HasMeanVar (arcsinePDF 0 1) (1 / 2) (1 / 8) ∧ HasSkew (arcsinePDF 0 1) 0 ∧
    HasKurt (arcsinePDF 0 1) (3 / 2) := by
  have r0 := arcsine_rec 0
  have r1 := arcsine_rec 1
  have r2 := arcsine_rec 2
  rw [arcsine_zero] at r0
  rw [arcsine_one] at r1
  norm_num at r0 r1 r2
  have hm : HasMean (arcsinePDF 0 1) (1 / 2) := by
    have h1 := (arcsine_central 1).1
    have d := (arcsine_density (zero_lt_one' ℝ)).2
    rw [arcsine_one] at h1
    have e : (fun x => x * arcsinePDF 0 1 x) = fun x => (x - 1 / 2) ^ 1 * arcsinePDF 0 1 x + 1 / 2 * arcsinePDF 0 1 x := by
      ext x; ring
    unfold HasMean
    rw [e]
    refine ⟨h1.1.add (d.integrable.const_mul _), ?_⟩
    rw [integral_add h1.1 (d.integrable.const_mul _), h1.2, integral_const_mul, d.total]; norm_num
  have hv := (arcsine_central 2).1.congr_val (w := 1 / 8) (by norm_num; linarith)
  have h3 := (arcsine_central 3).1.congr_val (w := 0) (by norm_num; linarith)
  have h4 := (arcsine_central 4).1.congr_val (w := 3 / 128) (by norm_num; linarith)
  exact ⟨⟨hm, hv⟩, ⟨_, _, by norm_num, ⟨hm, hv⟩, h3.congr_val (by ring)⟩, ⟨_, _, by norm_num, ⟨hm, hv⟩, h4.congr_val (by norm_num)⟩⟩

theorem arcsine_std_entropy : HasEntropy (arcsinePDF 0 1) (Real.log (π / 4)) := by
  set s : Set ℝ := Ioo (-(π / 2)) (π / 2)
  have hpi := pi_pos
  have himg : (fun x => (1 + sin x) / 2) '' s = Ioo 0 1 := by
    ext y
    simp only [mem_image, mem_Ioo, s]
    constructor
    · rintro ⟨x, ⟨h1, h2⟩, rfl⟩
      have hs := Real.strictMonoOn_sin
      have a1 := hs (left_mem_Icc.2 (by linarith)) ⟨h1.le, h2.le⟩ h1
      have a2 := hs ⟨h1.le, h2.le⟩ (right_mem_Icc.2 (by linarith)) h2
      rw [sin_neg, sin_pi_div_two] at a1; rw [sin_pi_div_two] at a2
      constructor <;> linarith
    · rintro ⟨h1, h2⟩
      refine ⟨arcsin (2 * y - 1), ⟨neg_pi_div_two_lt_arcsin.2 (by linarith), arcsin_lt_pi_div_two.2 (by linarith)⟩, ?_⟩
      rw [sin_arcsin (by linarith) (by linarith)]; ring
  have hder : ∀ x ∈ s, HasDerivWithinAt (fun x => (1 + sin x) / 2) (cos x / 2) s x := fun x _ =>
    (((hasDerivAt_sin x).const_add 1).div_const 2).hasDerivWithinAt
  have hinj : InjOn (fun x => (1 + sin x) / 2) s := fun x hx y hy h => by
    simp only at h
    exact Real.injOn_sin ⟨hx.1.le, hx.2.le⟩ ⟨hy.1.le, hy.2.le⟩ (by linarith)
  have hcos : ∀ x ∈ s, 0 < cos x := fun x hx => cos_pos_of_mem_Ioo hx
  set g : ℝ → ℝ := fun x => arcsinePDF 0 1 x * Real.log (arcsinePDF 0 1 x)
  have hval : ∀ x ∈ s, |cos x / 2| • g ((1 + sin x) / 2) = 1 / π * (Real.log (2 / π) - Real.log (cos x)) := by
    intro x hx
    have hc := hcos x hx
    have hm : (1 + sin x) / 2 ∈ Ioo (0:ℝ) 1 := himg ▸ mem_image_of_mem _ hx
    have e : arcsinePDF 0 1 ((1 + sin x) / 2) = 2 / (π * cos x) := by
      unfold arcsinePDF
      rw [if_neg (by push Not; exact hm), show ((1 + sin x) / 2 - 0) * (1 - (1 + sin x) / 2) = (cos x / 2) ^ 2 by
        have := sin_sq_add_cos_sq x; nlinarith, Real.sqrt_sq (by positivity)]
      field_simp
    simp only [g]
    rw [e, show 2 / (π * cos x) = 2 / π / cos x by field_simp, Real.log_div (by positivity) hc.ne',
      abs_of_pos (by positivity), smul_eq_mul]
    field_simp
  obtain ⟨hlc, hlc_val⟩ := log_cos_integral
  have hint : IntervalIntegrable (fun x => 1 / π * (Real.log (2 / π) - Real.log (cos x))) volume (-(π / 2)) (π / 2) :=
    (intervalIntegrable_const.sub hlc).const_mul _
  have hle : -(π / 2) ≤ π / 2 := by linarith
  have hion : IntegrableOn (fun x => |cos x / 2| • g ((1 + sin x) / 2)) s := by
    refine IntegrableOn.congr_fun (f := fun x => 1 / π * (Real.log (2 / π) - Real.log (cos x))) ?_ (fun x hx => (hval x hx).symm) measurableSet_Ioo
    exact (intervalIntegrable_iff_integrableOn_Ioo_of_le hle).1 hint
  have h1 := (integrableOn_image_iff_integrableOn_abs_deriv_smul measurableSet_Ioo hder hinj g).2 hion
  have h2 := integral_image_eq_integral_abs_deriv_smul measurableSet_Ioo hder hinj g
  rw [himg] at h1 h2
  have h3 := supp_integral (a := 0) (b := 1) (F := g) (G := g) zero_le_one (fun x _ => rfl) (fun x hx => by
    have : arcsinePDF 0 1 x = 0 := if_pos (hx.imp le_of_lt le_of_lt)
    simp only [g, this, zero_mul]) ((intervalIntegrable_iff_integrableOn_Ioo_of_le zero_le_one).2 h1)
  refine ⟨h3.1, ?_⟩
  change -∫ x, g x = _
  rw [h3.2, intervalIntegral.integral_of_le zero_le_one, integral_Ioc_eq_integral_Ioo, h2,
    setIntegral_congr_fun measurableSet_Ioo hval, ← integral_Ioc_eq_integral_Ioo,
    ← intervalIntegral.integral_of_le hle, intervalIntegral.integral_const_mul,
    intervalIntegral.integral_sub intervalIntegrable_const hlc,
    hlc_val, intervalIntegral.integral_const, smul_eq_mul, Real.log_div (by norm_num) hpi.ne',
    Real.log_div hpi.ne' (by norm_num), show (4 : ℝ) = 2 ^ 2 by norm_num, Real.log_pow]
  push_cast; field_simp; ring

theorem arcsine_entropy {a b : ℝ} (hab : a < b) : HasEntropy (arcsinePDF a b) (Real.log (π / 4 * (b - a))) := by
  rw [arcsine_locScale hab, Real.log_mul (by positivity) (sub_pos.2 hab).ne']
  exact locScale_entropy (sub_pos.2 hab) (arcsine_density zero_lt_one).2 arcsine_std_entropy

theorem arcsine_moments {a b : ℝ} (hab : a < b) : HasMeanVar (arcsinePDF a b) ((a + b) / 2) ((b - a) ^ 2 / 8) ∧
    HasSkew (arcsinePDF a b) 0 ∧ HasKurt (arcsinePDF a b) (3 / 2) := by
  have hw := sub_pos.2 hab
  have d := (arcsine_density (zero_lt_one' ℝ)).2
  obtain ⟨h1, h2, h3⟩ := arcsine_std_moments
  rw [arcsine_locScale hab]
  refine ⟨?_, locScale_skew hw d h2, locScale_kurt hw d h3⟩
  have := locScale_meanVar (m := a) hw d h1
  rwa [show a + (b - a) * (1 / 2) = (a + b) / 2 by ring, show (b - a) ^ 2 * (1 / 8) = (b - a) ^ 2 / 8 by ring] at this

end Rstat.Spec
