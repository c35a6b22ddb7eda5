import Verif.Lemmas.Moments
import Verif.Lemmas.Law
import Verif.Spec.Families
import Mathlib.Analysis.SpecialFunctions.Integrals.Basic
import Mathlib.Analysis.SpecialFunctions.Log.NegMulLog

/-! The triangular law. -/
namespace Rstat.Spec
open MeasureTheory Filter Topology Set Real

section
variable {a b c : ℝ}

theorem tri_density (hac : a < c) (hcb : c < b) :
    IsCDF (triangularCDF a b c) ∧ IsDensityOf (triangularPDF a b c) (triangularCDF a b c) := by
  have hab : a < b := hac.trans hcb
  have h1 : 0 < c - a := by linarith
  have h2 : 0 < b - c := by linarith
  have h3 : 0 < b - a := by linarith
  set G1 : ℝ → ℝ := fun x => (x - a) ^ 2 / ((b - a) * (c - a)) with hG1
  set G2 : ℝ → ℝ := fun x => 1 - (b - x) ^ 2 / ((b - a) * (b - c)) with hG2
  have eqc : G1 c = G2 c := by simp only [hG1, hG2]; field_simp; ring
  set G : ℝ → ℝ := fun x => if x ≤ c then G1 x else G2 x with hG
  have hGc : Continuous G := by
    refine Continuous.if_le (by fun_prop) (by fun_prop) continuous_id continuous_const fun x hx => ?_
    rw [hx]; exact eqc
  have d1 : ∀ x, HasDerivAt G1 (2 * (x - a) / ((b - a) * (c - a))) x := fun x => by
    have := (((hasDerivAt_id x).sub_const a).pow 2).div_const ((b - a) * (c - a))
    refine HasDerivAt.congr_deriv (f := G1) this ?_
    simp
  have d2 : ∀ x, HasDerivAt G2 (2 * (b - x) / ((b - a) * (b - c))) x := fun x => by
    have := ((((hasDerivAt_id x).const_sub b).pow 2).div_const ((b - a) * (b - c))).const_sub 1
    refine HasDerivAt.congr_deriv (f := G2) this ?_
    simp; ring
  have g0 : G a = 0 := by simp only [hG, if_pos hac.le, hG1]; simp
  have g1 : G b = 1 := by simp only [hG, if_neg (not_le.2 hcb), hG2]; simp
  have gm : MonotoneOn G (Icc a b) := by
    have m1 : MonotoneOn G1 (Icc a c) := fun x hx y hy hxy => by
      have := hx.1
      simp only [hG1]; gcongr
    have m2 : MonotoneOn G2 (Icc c b) := fun x hx y hy hxy => by
      have h : (b - y) ^ 2 ≤ (b - x) ^ 2 := by
        have := hy.2
        gcongr
      have : (b - y) ^ 2 / ((b - a) * (b - c)) ≤ (b - x) ^ 2 / ((b - a) * (b - c)) := by gcongr
      simp only [hG2]; linarith
    intro x hx y hy hxy
    simp only [hG]
    by_cases hyc : y ≤ c
    · rw [if_pos hyc, if_pos (hxy.trans hyc)]
      exact m1 ⟨hx.1, hxy.trans hyc⟩ ⟨hy.1, hyc⟩ hxy
    · rw [if_neg hyc]
      push Not at hyc
      by_cases hxc : x ≤ c
      · rw [if_pos hxc]
        calc G1 x ≤ G1 c := m1 ⟨hx.1, hxc⟩ ⟨hac.le, le_rfl⟩ hxc
          _ = G2 c := eqc
          _ ≤ G2 y := m2 ⟨le_rfl, hcb.le⟩ ⟨hyc.le, hy.2⟩ hyc.le
      · rw [if_neg hxc]
        push Not at hxc
        exact m2 ⟨hxc.le, hx.2⟩ ⟨hyc.le, hy.2⟩ hxy
  obtain ⟨hcdf, hcont⟩ := clamp_isCDF hab gm g0 g1 hGc.continuousOn
  have e : triangularCDF a b c = clampCDF a b G := by
    ext x; unfold triangularCDF clampCDF
    rcases lt_trichotomy x a with h | h | h
    · rw [if_pos h.le, if_pos h]
    · rw [h, if_pos le_rfl, if_neg (lt_irrefl _), if_neg (not_le.2 hab), g0]
    · rw [if_neg (not_le.2 h), if_neg (not_lt.2 h.le)]
      simp only [hG]
      split_ifs with k1 k2 k3 k4
      · linarith
      · rfl
      · linarith
      · rfl
      · rfl
      · linarith
  rw [e]
  refine ⟨hcdf, density_of_deriv (s := {a, b, c}) hcdf hcont (by simp) (fun x hx => ?_) fun x => ?_⟩
  · simp only [mem_insert_iff, mem_singleton_iff, not_or] at hx
    rcases lt_or_gt_of_ne hx.1 with hl | hr
    · rw [triangularPDF, if_pos hl]; exact clamp_deriv_left hl
    · rcases lt_or_gt_of_ne hx.2.2 with hl2 | hr2
      · rw [triangularPDF, if_neg (not_lt.2 hr.le), if_pos hl2]
        refine clamp_deriv_mid hr (hl2.trans hcb) ((d1 x).congr_of_eventuallyEq ?_)
        filter_upwards [Iio_mem_nhds hl2] with t ht
        simp only [hG]; rw [if_pos (mem_Iio.1 ht).le]
      · rcases lt_or_gt_of_ne hx.2.1 with hl3 | hr3
        · rw [triangularPDF, if_neg (not_lt.2 hr.le), if_neg (not_lt.2 hr2.le), if_neg hx.2.2, if_pos hl3.le]
          refine clamp_deriv_mid hr hl3 ((d2 x).congr_of_eventuallyEq ?_)
          filter_upwards [Ioi_mem_nhds hr2] with t ht
          simp only [hG]; rw [if_neg (not_le.2 ht)]
        · rw [triangularPDF, if_neg (not_lt.2 hr.le), if_neg (not_lt.2 hr2.le), if_neg hx.2.2, if_neg (not_le.2 hr3)]
          exact clamp_deriv_right hab.le hr3
  · unfold triangularPDF
    split_ifs with k1 k2 k3 k4
    · exact le_rfl
    · have : 0 ≤ x - a := by linarith
      positivity
    · positivity
    · have : 0 ≤ b - x := by linarith
      positivity
    · exact le_rfl

theorem tri_mode (hac : a < c) (hcb : c < b) : IsMode (triangularPDF a b c) c := fun x => by
  have h1 : 0 < c - a := by linarith
  have h2 : 0 < b - c := by linarith
  have h3 : 0 < b - a := by linarith
  have e : triangularPDF a b c c = 2 / (b - a) := by
    rw [triangularPDF, if_neg (not_lt.2 hac.le), if_neg (lt_irrefl _), if_pos rfl]
  rw [e]; unfold triangularPDF
  split_ifs with k1 k2 k3 k4
  · positivity
  · rw [div_le_div_iff₀ (by positivity) h3]; nlinarith [mul_pos h3 h1]
  · exact le_rfl
  · have : c ≤ x := not_lt.1 k2
    rw [div_le_div_iff₀ (by positivity) h3]; nlinarith [mul_pos h3 h2]
  · positivity

/-- an expectation under the law, as two integrals over the two sides -/
theorem tri_integral (hac : a < c) (hcb : c < b) {h : ℝ → ℝ → ℝ} {G : ℝ → ℝ} (hG : ∀ x, G x = h x (triangularPDF a b c x))
    (h0 : ∀ x, h x 0 = 0)
    (i1 : IntervalIntegrable (fun x => h x (2 * (x - a) / ((b - a) * (c - a)))) volume a c)
    (i2 : IntervalIntegrable (fun x => h x (2 * (b - x) / ((b - a) * (b - c)))) volume c b) :
    Integrable G ∧ ∫ x, G x = (∫ x in a..c, h x (2 * (x - a) / ((b - a) * (c - a)))) +
      ∫ x in c..b, h x (2 * (b - x) / ((b - a) * (b - c))) := by
  obtain ⟨j1, e1⟩ := supp_integral (a := a) (b := c) hac.le (F := (Iic c).indicator G)
    (G := fun x => h x (2 * (x - a) / ((b - a) * (c - a))))
    (fun x hx => by
      rw [indicator_of_mem (show x ∈ Iic c from hx.2.le), hG, triangularPDF, if_neg (not_lt.2 hx.1.le), if_pos hx.2])
    (fun x hx => by
      rcases hx with hx | hx
      · rw [indicator_of_mem (show x ∈ Iic c from (hx.trans hac).le), hG, triangularPDF, if_pos hx, h0]
      · rw [indicator_of_notMem (by simpa using hx)]) i1
  obtain ⟨j2, e2⟩ := supp_integral (a := c) (b := b) hcb.le (F := (Iic c)ᶜ.indicator G)
    (G := fun x => h x (2 * (b - x) / ((b - a) * (b - c))))
    (fun x hx => by
      rw [indicator_of_mem (by simpa using hx.1), hG, triangularPDF, if_neg (not_lt.2 (hac.trans hx.1).le),
        if_neg (not_lt.2 hx.1.le), if_neg hx.1.ne', if_pos hx.2.le])
    (fun x hx => by
      rcases hx with hx | hx
      · rw [indicator_of_notMem (by simpa using hx.le)]
      · rw [indicator_of_mem (by simpa using hcb.trans hx), hG, triangularPDF, if_neg (not_lt.2 ((hac.trans hcb).trans hx).le),
          if_neg (not_lt.2 (hcb.trans hx).le), if_neg (hcb.trans hx).ne', if_neg (not_le.2 hx), h0]) i2
  have e : G = fun x => (Iic c).indicator G x + (Iic c)ᶜ.indicator G x := by
    ext x; rw [indicator_self_add_compl_apply]
  constructor
  · rw [e]; exact j1.add j2
  · rw [e, integral_add j1 j2, e1, e2]

theorem tri_central (hac : a < c) (hcb : c < b) (n : ℕ) :
    HasCentral (triangularPDF a b c) a n
      (2 / ((b - a) * (c - a)) * ((c - a) ^ (n + 2) / (n + 2)) +
       2 / ((b - a) * (b - c)) * ((b - a) * (((b - a) ^ (n + 1) - (c - a) ^ (n + 1)) / (n + 1)) -
         ((b - a) ^ (n + 2) - (c - a) ^ (n + 2)) / (n + 2))) := by
  have c1 : Continuous fun x : ℝ => (x - a) ^ n * (2 * (x - a) / ((b - a) * (c - a))) := by fun_prop
  have c2 : Continuous fun x : ℝ => (x - a) ^ n * (2 * (b - x) / ((b - a) * (b - c))) := by fun_prop
  obtain ⟨h1, h2⟩ := tri_integral hac hcb (h := fun x y => (x - a) ^ n * y) (G := fun x => (x - a) ^ n * triangularPDF a b c x)
    (fun x => rfl) (fun x => mul_zero _) (c1.intervalIntegrable _ _) (c2.intervalIntegrable _ _)
  refine ⟨h1, ?_⟩
  rw [h2]
  have f1 : ∫ x in a..c, (x - a) ^ n * (2 * (x - a) / ((b - a) * (c - a))) =
      2 / ((b - a) * (c - a)) * ((c - a) ^ (n + 2) / (n + 2)) := by
    have : ∀ x : ℝ, (x - a) ^ n * (2 * (x - a) / ((b - a) * (c - a))) = 2 / ((b - a) * (c - a)) * (x - a) ^ (n + 1) := fun x => by ring
    simp only [this]
    rw [intervalIntegral.integral_const_mul, intervalIntegral.integral_comp_sub_right (fun x => x ^ (n + 1)), integral_pow, sub_self]
    congr 1; push_cast; rw [zero_pow (by positivity)]; ring_nf
  have f2 : ∫ x in c..b, (x - a) ^ n * (2 * (b - x) / ((b - a) * (b - c))) =
      2 / ((b - a) * (b - c)) * ((b - a) * (((b - a) ^ (n + 1) - (c - a) ^ (n + 1)) / (n + 1)) -
         ((b - a) ^ (n + 2) - (c - a) ^ (n + 2)) / (n + 2)) := by
    have : ∀ x : ℝ, (x - a) ^ n * (2 * (b - x) / ((b - a) * (b - c))) =
        2 / ((b - a) * (b - c)) * ((b - a) * (x - a) ^ n - (x - a) ^ (n + 1)) := fun x => by ring
    simp only [this]
    rw [intervalIntegral.integral_const_mul,
      intervalIntegral.integral_comp_sub_right (fun x => (b - a) * x ^ n - x ^ (n + 1)),
      intervalIntegral.integral_sub (by apply Continuous.intervalIntegrable; fun_prop) (by apply Continuous.intervalIntegrable; fun_prop),
      intervalIntegral.integral_const_mul, integral_pow, integral_pow]
    congr 2; push_cast; ring_nf
  rw [f1, f2]

theorem tri_shift : triangularPDF a b c = locScale a 1 (triangularPDF 0 (b - a) (c - a)) := by
  ext x; unfold triangularPDF locScale
  simp only [div_one, sub_zero, sub_neg]
  have k1 : x - a < c - a ↔ x < c := by constructor <;> intro h <;> linarith
  have k2 : x - a = c - a ↔ x = c := by constructor <;> intro h <;> linarith
  have k3 : x - a ≤ b - a ↔ x ≤ b := by constructor <;> intro h <;> linarith
  simp only [k1, k2, k3, sub_sub_sub_cancel_right]

theorem tri_moments (hac : a < c) (hcb : c < b) :
    let V := (a * a + b * b + c * c - (a * b + a * c + b * c)) / 18
    0 < V ∧ HasMeanVar (triangularPDF a b c) ((a + b + c) / 3) V ∧
    HasSkew (triangularPDF a b c) ((a + b - 2 * c) * (2 * a - b - c) * (a - 2 * b + c) / 270 / Real.sqrt V ^ 3) ∧
    HasKurt (triangularPDF a b c) (12 / 5) := by
  have hB : 0 < b - a := by linarith
  have hC : 0 < c - a := by linarith
  have hBC : 0 < (b - a) - (c - a) := by linarith
  intro V
  have hV : V = (((b - a) ^ 2 + (b - a) * (c - a) + (c - a) ^ 2) / 6 - (((b - a) + (c - a)) / 3) ^ 2) := by simp only [V]; ring
  have hm : (a + b + c) / 3 = 1 * (((b - a) + (c - a)) / 3) + a := by ring
  have hsk : (a + b - 2 * c) * (2 * a - b - c) * (a - 2 * b + c) / 270 =
    ((b - a) ^ 3 + (b - a) ^ 2 * (c - a) + (b - a) * (c - a) ^ 2 + (c - a) ^ 3) / 10 -
      3 * (((b - a) + (c - a)) / 3) * (((b - a) ^ 2 + (b - a) * (c - a) + (c - a) ^ 2) / 6) + 2 * (((b - a) + (c - a)) / 3) ^ 3 := by ring
  rw [tri_shift, hm, hsk, hV]
  clear hV hm hsk V
  generalize b - a = B at *
  generalize c - a = C at *
  have hd := (tri_density (a := 0) (b := B) (c := C) hC (by linarith)).2
  have raw := tri_central (a := 0) (b := B) (c := C) hC (by linarith)
  have hB' := hB.ne'
  have hC' := hC.ne'
  have hBC' := hBC.ne'
  have r1 : HasMean (triangularPDF 0 B C) ((B + C) / 3) := hasMean_iff_raw.2 ((raw 1).congr_val (by push_cast; simp only [sub_zero]; field_simp; ring))
  have r2 := (raw 2).congr_val (w := (B ^ 2 + B * C + C ^ 2) / 6) (by push_cast; simp only [sub_zero]; field_simp; ring)
  have r3 := (raw 3).congr_val (w := (B ^ 3 + B ^ 2 * C + B * C ^ 2 + C ^ 3) / 10) (by push_cast; simp only [sub_zero]; field_simp; ring)
  have r4 := (raw 4).congr_val (w := (B ^ 4 + B ^ 3 * C + B ^ 2 * C ^ 2 + B * C ^ 3 + C ^ 4) / 15) (by push_cast; simp only [sub_zero]; field_simp; ring)
  obtain ⟨hv, mv, sk, ku⟩ := moments_of_raw hd r1 r2 r3 r4
  refine ⟨hv, ?_, locScale_skew one_pos hd sk, ?_⟩
  · have := locScale_meanVar (m := a) one_pos hd mv
    convert this using 1 <;> ring
  · have := locScale_kurt (m := a) one_pos hd ku
    convert this using 1
    have hv' := hv.ne'
    rw [eq_div_iff (pow_ne_zero 2 hv')]
    ring

/-- `∫₀ᵖ y ln y dy` -/
theorem integral_mul_log {p : ℝ} (hp : 0 < p) : IntervalIntegrable (fun y => y * Real.log y) volume 0 p ∧
    ∫ y in (0:ℝ)..p, y * Real.log y = p ^ 2 / 2 * (Real.log p - 1 / 2) := by
  have hc : Continuous fun y : ℝ => y * Real.log y := Real.continuous_mul_log
  refine ⟨hc.intervalIntegrable _ _, ?_⟩
  have h := intervalIntegral.integral_eq_sub_of_hasDerivAt_of_le (f := fun y => y * (y * Real.log y) / 2 - y ^ 2 / 4)
    (f' := fun y => y * Real.log y) hp.le (by fun_prop) (fun y hy => ?_) (hc.intervalIntegrable _ _)
  · rw [h]; simp; ring
  · have hy0 : y ≠ 0 := hy.1.ne'
    have d := ((((hasDerivAt_id y).mul ((hasDerivAt_id y).mul (Real.hasDerivAt_log hy0))).div_const 2).sub ((hasDerivAt_pow 2 y).div_const 4))
    refine HasDerivAt.congr_deriv (f := fun y => y * (y * Real.log y) / 2 - y ^ 2 / 4) d ?_
    simp only [id, Pi.mul_apply]; push_cast; field_simp; ring

theorem tri_entropy (hac : a < c) (hcb : c < b) : HasEntropy (triangularPDF a b c) (1 / 2 + Real.log ((b - a) / 2)) := by
  have h1 : 0 < c - a := by linarith
  have h2 : 0 < b - c := by linarith
  have h3 : 0 < b - a := by linarith
  have hp : 0 < 2 / (b - a) := by positivity
  obtain ⟨-, L⟩ := integral_mul_log hp
  have cl : Continuous fun y : ℝ => y * Real.log y := Real.continuous_mul_log
  have c1 : Continuous fun x : ℝ => 2 * (x - a) / ((b - a) * (c - a)) * Real.log (2 * (x - a) / ((b - a) * (c - a))) :=
    cl.comp (g := fun y => y * Real.log y) (by fun_prop : Continuous fun x : ℝ => 2 * (x - a) / ((b - a) * (c - a)))
  have c2 : Continuous fun x : ℝ => 2 * (b - x) / ((b - a) * (b - c)) * Real.log (2 * (b - x) / ((b - a) * (b - c))) :=
    cl.comp (g := fun y => y * Real.log y) (by fun_prop : Continuous fun x : ℝ => 2 * (b - x) / ((b - a) * (b - c)))
  obtain ⟨k1, k2⟩ := tri_integral hac hcb (h := fun x y => y * Real.log y)
    (G := fun x => triangularPDF a b c x * Real.log (triangularPDF a b c x))
    (fun x => rfl) (fun x => zero_mul _) (c1.intervalIntegrable _ _) (c2.intervalIntegrable _ _)
  refine ⟨k1, ?_⟩
  rw [k2]
  have q1 : ∫ x in a..c, 2 * (x - a) / ((b - a) * (c - a)) * Real.log (2 * (x - a) / ((b - a) * (c - a))) =
      (b - a) * (c - a) / 2 * ((2 / (b - a)) ^ 2 / 2 * (Real.log (2 / (b - a)) - 1 / 2)) := by
    rw [← L]
    have := intervalIntegral.integral_comp_mul_sub (a := a) (b := c) (fun y => y * Real.log y)
      (c := 2 / ((b - a) * (c - a))) (by positivity) (2 / ((b - a) * (c - a)) * a)
    rw [smul_eq_mul] at this
    convert this using 2
    · ext x; ring_nf
    · field_simp
    · congr 1
      · ring
      · field_simp
  have q2 : ∫ x in c..b, 2 * (b - x) / ((b - a) * (b - c)) * Real.log (2 * (b - x) / ((b - a) * (b - c))) =
      (b - a) * (b - c) / 2 * ((2 / (b - a)) ^ 2 / 2 * (Real.log (2 / (b - a)) - 1 / 2)) := by
    rw [← L]
    have := intervalIntegral.integral_comp_sub_mul (a := c) (b := b) (fun y => y * Real.log y)
      (c := 2 / ((b - a) * (b - c))) (by positivity) (2 / ((b - a) * (b - c)) * b)
    rw [smul_eq_mul] at this
    convert this using 2
    · ext x; ring_nf
    · field_simp
    · congr 1
      · ring
      · field_simp
  rw [q1, q2, show (b - a) / 2 = (2 / (b - a))⁻¹ by rw [inv_div], Real.log_inv]
  field_simp
  ring

end
end Rstat.Spec
