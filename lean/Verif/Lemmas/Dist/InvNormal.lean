import Verif.Lemmas.Gaussian
import Verif.Lemmas.Transfer
import Verif.Spec.NormalFamilies

/-! The inverse Gaussian law: density, moments, entropy, mode. -/
namespace Rstat.Spec
open MeasureTheory Filter Topology Set Real ProbabilityTheory

/-- fundamental theorem of calculus on `(0, ∞)` from the two limits -/
theorem ioi_ftc {H H' : ℝ → ℝ} {m : ℝ} (hd : ∀ x, 0 < x → HasDerivAt H (H' x) x) (hi : IntegrableOn H' (Ioi 0))
    (h0 : Tendsto H (𝓝[>] 0) (𝓝 0)) (h1 : Tendsto H atTop (𝓝 m)) : ∫ x in Ioi 0, H' x = m := by
  have e : ∀ x, 0 < x → (fun x : ℝ => if x ≤ 0 then 0 else H x) =ᶠ[𝓝 x] H := fun x hx => by
    filter_upwards [Ioi_mem_nhds hx] with y hy
    exact if_neg (not_le.2 hy)
  have := integral_Ioi_of_hasDerivAt_of_tendsto (a := 0) (f := fun x => if x ≤ 0 then 0 else H x) (f' := H') (m := m) ?_
    (fun x hx => (hd x hx).congr_of_eventuallyEq (e x hx)) hi ?_
  · rw [this]; simp
  · rw [← Ioi_insert, continuousWithinAt_insert_self]
    unfold ContinuousWithinAt
    simp only [le_refl, if_true]
    refine h0.congr' ?_
    filter_upwards [self_mem_nhdsWithin] with x hx
    exact (if_neg (not_le.2 hx)).symm
  · refine h1.congr' ?_
    filter_upwards [Ioi_mem_atTop 0] with x hx
    exact (if_neg (not_le.2 hx)).symm

/-- the two arguments of the distribution function -/
noncomputable def igA (μ l x : ℝ) : ℝ := √l * (√x / μ - 1 / √x)
noncomputable def igB (μ l x : ℝ) : ℝ := √l * (√x / μ + 1 / √x)
noncomputable def igK (μ l x : ℝ) : ℝ := Real.exp (-igA μ l x ^ 2 / 2) / √(2 * π)

section
variable {μ l : ℝ}

theorem igA_eq (hl : 0 < l) {x : ℝ} (hx : 0 < x) : √(l / x) * (x / μ - 1) = igA μ l x := by
  have hq := Real.mul_self_sqrt hx.le
  have h0 := Real.sqrt_pos.2 hx
  unfold igA
  rw [Real.sqrt_div hl.le]
  generalize √x = q at *
  rw [← hq]; field_simp

theorem igB_eq (hl : 0 < l) {x : ℝ} (hx : 0 < x) : √(l / x) * (x / μ + 1) = igB μ l x := by
  have hq := Real.mul_self_sqrt hx.le
  have h0 := Real.sqrt_pos.2 hx
  unfold igB
  rw [Real.sqrt_div hl.le]
  generalize √x = q at *
  rw [← hq]; field_simp

theorem igA_sq (hm : 0 < μ) (hl : 0 < l) {x : ℝ} (hx : 0 < x) : igA μ l x ^ 2 = l * x / μ ^ 2 - 2 * l / μ + l / x := by
  have hq := Real.mul_self_sqrt hx.le
  have h0 := Real.sqrt_pos.2 hx
  unfold igA
  rw [mul_pow, Real.sq_sqrt hl.le]
  generalize √x = q at *
  rw [← hq]; field_simp; ring

theorem igB_sq (hm : 0 < μ) (hl : 0 < l) {x : ℝ} (hx : 0 < x) : igB μ l x ^ 2 = igA μ l x ^ 2 + 4 * l / μ := by
  have hq := Real.mul_self_sqrt hx.le
  have h0 := Real.sqrt_pos.2 hx
  rw [igA_sq hm hl hx]
  unfold igB
  rw [mul_pow, Real.sq_sqrt hl.le]
  generalize √x = q at *
  rw [← hq]; field_simp; ring

theorem igA_deriv (hm : 0 < μ) {x : ℝ} (hx : 0 < x) :
    HasDerivAt (igA μ l) (√l * ((x + μ) / (2 * μ * x * √x))) x := by
  have hq := Real.mul_self_sqrt hx.le
  have h0 := Real.sqrt_pos.2 hx
  have h1 := Real.hasDerivAt_sqrt hx.ne'
  have h2 := ((h1.div_const μ).sub (h1.inv h0.ne')).const_mul (√l)
  refine HasDerivAt.congr_deriv (f := igA μ l) (h2.congr_of_eventuallyEq (Filter.Eventually.of_forall fun y => ?_)) ?_
  · unfold igA; simp [one_div]
  · generalize √x = q at *
    rw [← hq]; field_simp; ring

theorem igB_deriv (hm : 0 < μ) {x : ℝ} (hx : 0 < x) :
    HasDerivAt (igB μ l) (√l * ((x - μ) / (2 * μ * x * √x))) x := by
  have hq := Real.mul_self_sqrt hx.le
  have h0 := Real.sqrt_pos.2 hx
  have h1 := Real.hasDerivAt_sqrt hx.ne'
  have h2 := ((h1.div_const μ).add (h1.inv h0.ne')).const_mul (√l)
  refine HasDerivAt.congr_deriv (f := igB μ l) (h2.congr_of_eventuallyEq (Filter.Eventually.of_forall fun y => ?_)) ?_
  · unfold igB; simp [one_div]
  · generalize √x = q at *
    rw [← hq]; field_simp; ring

theorem ig_pdf_eq (hm : 0 < μ) (hl : 0 < l) {x : ℝ} (hx : 0 < x) :
    √(l / (2 * π * x ^ 3)) * Real.exp (-l * (x - μ) ^ 2 / (2 * μ ^ 2 * x)) = √l / (x * √x) * igK μ l x := by
  have h0 := Real.sqrt_pos.2 hx
  have hp := pi_pos
  unfold igK
  rw [igA_sq hm hl hx, Real.sqrt_div hl.le, Real.sqrt_mul (by positivity) (x ^ 3), show x ^ 3 = x ^ 2 * x by ring,
    Real.sqrt_mul (by positivity) x, Real.sqrt_sq hx.le,
    show -(l * x / μ ^ 2 - 2 * l / μ + l / x) / 2 = -l * (x - μ) ^ 2 / (2 * μ ^ 2 * x) by field_simp; ring]
  field_simp

theorem igK_B (hm : 0 < μ) (hl : 0 < l) {x : ℝ} (hx : 0 < x) :
    Real.exp (2 * l / μ) * (Real.exp (-(-igB μ l x) ^ 2 / 2) / √(2 * π)) = igK μ l x := by
  unfold igK
  rw [neg_sq, igB_sq hm hl hx, ← mul_div_assoc, ← Real.exp_add]
  congr 2; ring

theorem sqrt_tendsto_zero : Tendsto (fun x : ℝ => √x) (𝓝[>] 0) (𝓝[>] 0) := by
  refine tendsto_nhdsWithin_iff.2 ⟨?_, ?_⟩
  · have := Real.continuous_sqrt.tendsto 0
    rw [Real.sqrt_zero] at this
    exact this.mono_left nhdsWithin_le_nhds
  · filter_upwards [self_mem_nhdsWithin] with x hx
    exact Real.sqrt_pos.2 hx

theorem igA_zero (hl : 0 < l) : Tendsto (igA μ l) (𝓝[>] 0) atBot := by
  have h1 : Tendsto (fun x : ℝ => √x / μ) (𝓝[>] 0) (𝓝 (0 / μ)) := (sqrt_tendsto_zero.mono_right nhdsWithin_le_nhds).div_const μ
  have h2 : Tendsto (fun x : ℝ => 1 / √x) (𝓝[>] 0) atTop := by
    simp only [one_div]; exact tendsto_inv_nhdsGT_zero.comp sqrt_tendsto_zero
  have h3 := h1.add_atBot (tendsto_neg_atTop_atBot.comp h2)
  have := h3.const_mul_atBot (Real.sqrt_pos.2 hl)
  refine this.congr fun x => ?_
  simp only [igA, Function.comp]; ring

theorem igB_zero (hl : 0 < l) : Tendsto (igB μ l) (𝓝[>] 0) atTop := by
  have h1 : Tendsto (fun x : ℝ => √x / μ) (𝓝[>] 0) (𝓝 (0 / μ)) := (sqrt_tendsto_zero.mono_right nhdsWithin_le_nhds).div_const μ
  have h2 : Tendsto (fun x : ℝ => 1 / √x) (𝓝[>] 0) atTop := by
    simp only [one_div]; exact tendsto_inv_nhdsGT_zero.comp sqrt_tendsto_zero
  exact (h1.add_atTop h2).const_mul_atTop (Real.sqrt_pos.2 hl)

theorem igA_top (hm : 0 < μ) (hl : 0 < l) : Tendsto (igA μ l) atTop atTop := by
  have h1 : Tendsto (fun x : ℝ => √x / μ) atTop atTop := Real.tendsto_sqrt_atTop.atTop_div_const hm
  have h2 : Tendsto (fun x : ℝ => 1 / √x) atTop (𝓝 0) := by
    simp only [one_div]; exact tendsto_inv_atTop_zero.comp Real.tendsto_sqrt_atTop
  have := (h1.atTop_add h2.neg).const_mul_atTop (Real.sqrt_pos.2 hl)
  refine this.congr fun x => ?_
  simp only [igA]; ring

theorem igB_top (hm : 0 < μ) (hl : 0 < l) : Tendsto (igB μ l) atTop atTop := by
  have h1 : Tendsto (fun x : ℝ => √x / μ) atTop atTop := Real.tendsto_sqrt_atTop.atTop_div_const hm
  have h2 : Tendsto (fun x : ℝ => 1 / √x) atTop (𝓝 0) := by
    simp only [one_div]; exact tendsto_inv_atTop_zero.comp Real.tendsto_sqrt_atTop
  exact (h1.atTop_add h2).const_mul_atTop (Real.sqrt_pos.2 hl)

/-- the two antiderivatives -/
theorem ig_F_deriv (hm : 0 < μ) (hl : 0 < l) {x : ℝ} (hx : 0 < x) (s : ℝ) :
    HasDerivAt (fun x => Phi (igA μ l x) + s * (Real.exp (2 * l / μ) * Phi (-igB μ l x)))
      (igK μ l x * (√l * ((x + μ) / (2 * μ * x * √x))) - s * (igK μ l x * (√l * ((x - μ) / (2 * μ * x * √x))))) x := by
  have h1 : HasDerivAt (fun x => Phi (igA μ l x)) (igK μ l x * (√l * ((x + μ) / (2 * μ * x * √x)))) x :=
    (Phi_hasDerivAt (igA μ l x)).comp x (igA_deriv hm hx)
  have h2 : HasDerivAt (fun x => Phi (-igB μ l x))
      (Real.exp (-(-igB μ l x) ^ 2 / 2) / √(2 * π) * -(√l * ((x - μ) / (2 * μ * x * √x)))) x :=
    HasDerivAt.comp (h₂ := Phi) (h := fun x => -igB μ l x) x (Phi_hasDerivAt (-igB μ l x)) (igB_deriv hm hx).neg
  refine (h1.add ((h2.const_mul _).const_mul s)).congr_deriv ?_
  rw [← mul_assoc (Real.exp (2 * l / μ)), igK_B hm hl hx]; ring

theorem ig_F_zero (hl : 0 < l) (s : ℝ) :
    Tendsto (fun x => Phi (igA μ l x) + s * (Real.exp (2 * l / μ) * Phi (-igB μ l x))) (𝓝[>] 0) (𝓝 0) := by
  have h1 := Phi_tendsto_bot.comp (igA_zero (μ := μ) hl)
  have h2 := Phi_tendsto_bot.comp (tendsto_neg_atTop_atBot.comp (igB_zero (μ := μ) hl))
  have := h1.add ((h2.const_mul (Real.exp (2 * l / μ))).const_mul s)
  simpa using this

theorem ig_F_top (hm : 0 < μ) (hl : 0 < l) (s : ℝ) :
    Tendsto (fun x => Phi (igA μ l x) + s * (Real.exp (2 * l / μ) * Phi (-igB μ l x))) atTop (𝓝 1) := by
  have h1 := Phi_tendsto_top.comp (igA_top hm hl)
  have h2 := Phi_tendsto_bot.comp (tendsto_neg_atTop_atBot.comp (igB_top hm hl))
  have := h1.add ((h2.const_mul (Real.exp (2 * l / μ))).const_mul s)
  simpa using this

theorem invNormal_density (hm : 0 < μ) (hl : 0 < l) :
    IsCDF (invNormalCDF μ l) ∧ IsDensityOf (invNormalPDF μ l) (invNormalCDF μ l) := by
  have key := half_density (a := 0) (G := fun x => Phi (igA μ l x) + 1 * (Real.exp (2 * l / μ) * Phi (-igB μ l x)))
    (g := fun x => √(l / (2 * π * x ^ 3)) * Real.exp (-l * (x - μ) ^ 2 / (2 * μ ^ 2 * x))) (fun x hx => ?_)
    (fun x hx => by positivity) (ig_F_zero hl 1) (ig_F_top hm hl 1)
  · have e : invNormalCDF μ l = halfCDF 0 fun x => Phi (igA μ l x) + 1 * (Real.exp (2 * l / μ) * Phi (-igB μ l x)) := by
      ext x
      unfold invNormalCDF halfCDF
      by_cases hx : x ≤ 0
      · rw [if_pos hx, if_pos hx]
      · rw [if_neg hx, if_neg hx, igA_eq hl (not_le.1 hx), igB_eq hl (not_le.1 hx)]; simp only [one_mul]
    rw [e]; exact key
  · rw [ig_pdf_eq hm hl hx]
    refine (ig_F_deriv hm hl hx 1).congr_deriv ?_
    have h0 := Real.sqrt_pos.2 hx
    generalize √x = q at *
    field_simp; ring

theorem igK_bound (hm : 0 < μ) (hl : 0 < l) {x : ℝ} (hx : 0 < x) :
    igK μ l x ≤ (Real.exp (l / μ) * (8 / l ^ 2) / √(2 * π)) * (x ^ 2 * Real.exp (-(l / (2 * μ ^ 2)) * x)) := by
  have hp := pi_pos
  have hs : 0 < √(2 * π) := by positivity
  have h1 : Real.exp (-(l / (2 * x))) ≤ 8 / l ^ 2 * x ^ 2 := by
    have hu : 0 < l / (2 * x) := by positivity
    have := Real.quadratic_le_exp_of_nonneg hu.le
    rw [Real.exp_neg, inv_le_comm₀ (Real.exp_pos _) (by positivity)]
    refine le_trans ?_ this
    have e : (8 / l ^ 2 * x ^ 2)⁻¹ = (l / (2 * x)) ^ 2 / 2 := by field_simp; ring
    rw [e]; linarith
  unfold igK
  rw [igA_sq hm hl hx, show -(l * x / μ ^ 2 - 2 * l / μ + l / x) / 2 = l / μ + -(l / (2 * x)) + -(l / (2 * μ ^ 2)) * x by
    field_simp; ring, Real.exp_add, Real.exp_add]
  rw [div_mul_eq_mul_div, div_le_div_iff_of_pos_right hs]
  calc _ ≤ Real.exp (l / μ) * (8 / l ^ 2 * x ^ 2) * Real.exp (-(l / (2 * μ ^ 2)) * x) :=
        mul_le_mul_of_nonneg_right (mul_le_mul_of_nonneg_left h1 (Real.exp_pos _).le) (Real.exp_pos _).le
    _ = _ := by ring

theorem igK_pos (x : ℝ) : 0 < igK μ l x := by
  have := pi_pos
  unfold igK; positivity

theorem igK_cont (hm : 0 < μ) : ContinuousOn (igK μ l) (Ioi 0) := by
  unfold igK
  refine ContinuousOn.div_const (Real.continuous_exp.comp_continuousOn ?_) _
  have : ContinuousOn (igA μ l) (Ioi 0) := fun x hx => (igA_deriv hm hx).continuousAt.continuousWithinAt
  exact ((this.pow 2).neg).div_const 2

/-- weight of the (shifted) moments: `x^j f(x) / x` -/
noncomputable def igW (μ l : ℝ) (j : ℕ) (x : ℝ) : ℝ := x ^ j * (√l / (x * √x) * igK μ l x / x)

theorem igW_int (hm : 0 < μ) (hl : 0 < l) (j : ℕ) : IntegrableOn (igW μ l j) (Ioi 0) := by
  have hp := pi_pos
  have hi := integrableOn_rpow_mul_exp_neg_mul_rpow (p := 1) (s := (j : ℝ) - 1 / 2) (b := l / (2 * μ ^ 2))
    (by have : (0:ℝ) ≤ j := j.cast_nonneg; linarith) one_pos (by positivity)
  refine Integrable.mono' (hi.const_mul (√l * (Real.exp (l / μ) * (8 / l ^ 2) / √(2 * π)))) ?_ ?_
  · refine ContinuousOn.aestronglyMeasurable ?_ measurableSet_Ioi
    unfold igW
    refine (continuous_pow j).continuousOn.mul (ContinuousOn.div ?_ continuousOn_id fun x hx => (ne_of_gt hx : x ≠ 0))
    refine ContinuousOn.mul (ContinuousOn.div continuousOn_const ?_ fun x hx => ?_) (igK_cont hm)
    · exact continuousOn_id.mul Real.continuous_sqrt.continuousOn
    · have h : 0 < x := hx
      have := Real.sqrt_pos.2 h
      positivity
  · filter_upwards [self_mem_ae_restrict measurableSet_Ioi] with x hx
    have hx : 0 < x := hx
    have h0 := Real.sqrt_pos.2 hx
    have hK := igK_pos (μ := μ) (l := l) x
    rw [Real.norm_of_nonneg (by unfold igW; positivity)]
    unfold igW
    rw [Real.rpow_one, Real.rpow_sub hx, Real.rpow_natCast, ← Real.sqrt_eq_rpow]
    have hb := igK_bound hm hl hx
    calc _ = x ^ j * (√l / (x ^ 2 * √x)) * igK μ l x := by field_simp
      _ ≤ x ^ j * (√l / (x ^ 2 * √x)) * _ := mul_le_mul_of_nonneg_left hb (by positivity)
      _ = _ := by
        generalize Real.exp (-(l / (2 * μ ^ 2)) * x) = E1
        generalize Real.exp (l / μ) = E2
        generalize √(2 * π) = p2
        field_simp

theorem igW_one (hm : 0 < μ) (hl : 0 < l) : ∫ x in Ioi 0, igW μ l 1 x = 1 := by
  refine ioi_ftc (fun x hx => (ig_F_deriv hm hl hx 1).congr_deriv ?_) (igW_int hm hl 1) (ig_F_zero hl 1) (ig_F_top hm hl 1)
  unfold igW
  have h0 := Real.sqrt_pos.2 hx
  generalize √x = q at *
  field_simp; ring

theorem igW_two (hm : 0 < μ) (hl : 0 < l) : ∫ x in Ioi 0, igW μ l 2 x = μ := by
  have h := ioi_ftc (H := fun x => μ * (Phi (igA μ l x) + -1 * (Real.exp (2 * l / μ) * Phi (-igB μ l x)))) (H' := igW μ l 2) (m := μ * 1)
    (fun x hx => ((ig_F_deriv hm hl hx (-1)).const_mul μ).congr_deriv ?_) (igW_int hm hl 2)
    (by simpa using (ig_F_zero hl (-1)).const_mul μ) ((ig_F_top hm hl (-1)).const_mul μ)
  · rw [h, mul_one]
  · unfold igW
    have h0 := Real.sqrt_pos.2 hx
    generalize √x = q at *
    field_simp; ring

theorem igK_deriv (hm : 0 < μ) (hl : 0 < l) {x : ℝ} (hx : 0 < x) :
    HasDerivAt (igK μ l) (igK μ l x * (-(l / (2 * μ ^ 2)) + l / 2 / x ^ 2)) x := by
  have h := (((((igA_deriv (l := l) hm hx).pow 2).neg).div_const 2).exp).div_const (√(2 * π))
  refine HasDerivAt.congr_deriv (f := igK μ l) h ?_
  have hq := Real.mul_self_sqrt hx.le
  have hql := Real.mul_self_sqrt hl.le
  have h0 := Real.sqrt_pos.2 hx
  have h0l := Real.sqrt_pos.2 hl
  simp only [igK]
  generalize Real.exp _ = E
  have hp : 0 < √(2 * π) := by have := pi_pos; positivity
  unfold igA
  generalize √x = q at *
  generalize √l = r at *
  generalize √(2 * π) = p at *
  rw [← hq, ← hql]
  simp only [Nat.reduceSub, pow_one]; push_cast
  field_simp; ring

theorem igW_rec (hm : 0 < μ) (hl : 0 < l) (n : ℕ) :
    l / (2 * μ ^ 2) * (∫ x in Ioi 0, igW μ l (n + 2) x) =
      ((n:ℝ) - 1 / 2) * (∫ x in Ioi 0, igW μ l (n + 1) x) + l / 2 * (∫ x in Ioi 0, igW μ l n x) := by
  have hp := pi_pos
  have i0 := (igW_int hm hl n).const_mul (l / 2)
  have i1 := (igW_int hm hl (n + 1)).const_mul ((n:ℝ) - 1 / 2)
  have i2 := (igW_int hm hl (n + 2)).const_mul (l / (2 * μ ^ 2))
  have i01 : IntegrableOn (fun x => ((n:ℝ) - 1 / 2) * igW μ l (n + 1) x + l / 2 * igW μ l n x) (Ioi 0) := i1.add i0
  have hH : ∀ x, 0 < x → √l * (x ^ n / √x * igK μ l x) ≤
      √l * (Real.exp (l / μ) * (8 / l ^ 2) / √(2 * π)) * (x ^ ((n:ℝ) + 3 / 2) * Real.exp (-(l / (2 * μ ^ 2)) * x)) := by
    intro x hx
    have h0 := Real.sqrt_pos.2 hx
    have hb := igK_bound hm hl hx
    have e : x ^ ((n:ℝ) + 3 / 2) = x ^ n / √x * x ^ 2 := by
      rw [show (n:ℝ) + 3 / 2 = n + 2 - 1 / 2 by ring, Real.rpow_sub hx, Real.rpow_add hx, ← Real.sqrt_eq_rpow, Real.rpow_natCast,
        show (2:ℝ) = ((2:ℕ):ℝ) by norm_num, Real.rpow_natCast]; ring
    rw [e]
    calc _ ≤ √l * (x ^ n / √x * _) := mul_le_mul_of_nonneg_left (mul_le_mul_of_nonneg_left hb (by positivity)) (Real.sqrt_nonneg _)
      _ = _ := by ring
  have hH0 : ∀ x, 0 < x → 0 ≤ √l * (x ^ n / √x * igK μ l x) := fun x hx => by
    have := igK_pos (μ := μ) (l := l) x
    positivity
  have key := ioi_ftc (H := fun x => √l * (x ^ n / √x * igK μ l x))
    (H' := fun x => ((n:ℝ) - 1 / 2) * igW μ l (n + 1) x + l / 2 * igW μ l n x - l / (2 * μ ^ 2) * igW μ l (n + 2) x) (m := 0)
    (fun x hx => ?_) (i01.sub i2) ?_ ?_
  · have s1 : ∫ x in Ioi 0, (((n:ℝ) - 1 / 2) * igW μ l (n + 1) x + l / 2 * igW μ l n x - l / (2 * μ ^ 2) * igW μ l (n + 2) x) =
        (∫ x in Ioi 0, (((n:ℝ) - 1 / 2) * igW μ l (n + 1) x + l / 2 * igW μ l n x)) - ∫ x in Ioi 0, l / (2 * μ ^ 2) * igW μ l (n + 2) x :=
      integral_sub i01 i2
    have s2 : ∫ x in Ioi 0, (((n:ℝ) - 1 / 2) * igW μ l (n + 1) x + l / 2 * igW μ l n x) =
        (∫ x in Ioi 0, ((n:ℝ) - 1 / 2) * igW μ l (n + 1) x) + ∫ x in Ioi 0, l / 2 * igW μ l n x := integral_add i1 i0
    rw [s1, s2, integral_const_mul, integral_const_mul, integral_const_mul] at key
    linarith
  · have hq := Real.mul_self_sqrt hx.le
    have h0 := Real.sqrt_pos.2 hx
    have h1 := ((hasDerivAt_pow n x).div (Real.hasDerivAt_sqrt hx.ne') h0.ne').mul (igK_deriv hm hl hx)
    refine (h1.const_mul (√l)).congr_deriv ?_
    unfold igW
    have en : (n:ℝ) * x ^ (n - 1) = n * x ^ n / x := by
      rcases n with _ | n
      · simp
      · rw [Nat.add_sub_cancel, pow_succ]; field_simp
    simp only [Pi.div_apply]
    rw [en, pow_succ x (n + 1), pow_succ x n]
    generalize x ^ n = X
    generalize √x = q at *
    generalize igK μ l x = K
    rw [← hq]
    field_simp; ring
  · have hl0 : Tendsto (fun x : ℝ => √l * (Real.exp (l / μ) * (8 / l ^ 2) / √(2 * π)) * (x ^ ((n:ℝ) + 3 / 2) * Real.exp (-(l / (2 * μ ^ 2)) * x)))
        (𝓝[>] 0) (𝓝 0) := by
      have hc : Continuous fun x : ℝ => √l * (Real.exp (l / μ) * (8 / l ^ 2) / √(2 * π)) * (x ^ ((n:ℝ) + 3 / 2) * Real.exp (-(l / (2 * μ ^ 2)) * x)) := by
        refine continuous_const.mul ((Real.continuous_rpow_const (by positivity)).mul (by fun_prop))
      have := hc.tendsto 0
      rw [Real.zero_rpow (by positivity)] at this
      simpa using this.mono_left nhdsWithin_le_nhds
    refine squeeze_zero' ?_ ?_ hl0
    · filter_upwards [self_mem_nhdsWithin] with x hx using hH0 x hx
    · filter_upwards [self_mem_nhdsWithin] with x hx using hH x hx
  · have hl1 := (tendsto_rpow_mul_exp_neg_mul_atTop_nhds_zero ((n:ℝ) + 3 / 2) (l / (2 * μ ^ 2)) (by positivity)).const_mul
      (√l * (Real.exp (l / μ) * (8 / l ^ 2) / √(2 * π)))
    rw [mul_zero] at hl1
    refine squeeze_zero' ?_ ?_ hl1
    · filter_upwards [Ioi_mem_atTop 0] with x hx using hH0 x hx
    · filter_upwards [Ioi_mem_atTop 0] with x hx using hH x hx

theorem ig_raw (hm : 0 < μ) (hl : 0 < l) (k : ℕ) :
    HasCentral (invNormalPDF μ l) 0 k (∫ x in Ioi 0, igW μ l (k + 1) x) := by
  refine supp_integral_Ioi (fun x hx => ?_) (fun x hx => ?_) (igW_int hm hl (k + 1))
  · unfold invNormalPDF igW
    rw [if_neg (not_le.2 hx), ig_pdf_eq hm hl hx, sub_zero, pow_succ]
    field_simp
  · unfold invNormalPDF; rw [if_pos hx.le, mul_zero]

/-- mean, variance, skewness, kurtosis of the inverse Gaussian law -/
theorem invNormal_moments (hm : 0 < μ) (hl : 0 < l) :
    HasMeanVar (invNormalPDF μ l) μ (μ ^ 3 / l) ∧ HasSkew (invNormalPDF μ l) (3 * √(μ / l)) ∧
    HasKurt (invNormalPDF μ l) (3 + 15 * μ / l) := by
  have m1 := igW_one hm hl
  have m2 := igW_two hm hl
  have r1 := igW_rec hm hl 1
  have r2 := igW_rec hm hl 2
  have r3 := igW_rec hm hl 3
  simp only [Nat.reduceAdd] at r1 r2 r3
  have m3 : ∫ x in Ioi 0, igW μ l 3 x = μ ^ 2 + μ ^ 3 / l := by
    rw [m1, m2] at r1; push_cast at r1; field_simp at r1 ⊢; linarith
  have m4 : ∫ x in Ioi 0, igW μ l 4 x = μ ^ 3 + 3 * μ ^ 4 / l + 3 * μ ^ 5 / l ^ 2 := by
    rw [m2, m3] at r2; push_cast at r2; field_simp at r2 ⊢; linear_combination r2
  have m5 : ∫ x in Ioi 0, igW μ l 5 x = μ ^ 4 + 6 * μ ^ 5 / l + 15 * μ ^ 6 / l ^ 2 + 15 * μ ^ 7 / l ^ 3 := by
    rw [m3, m4] at r3; push_cast at r3; field_simp at r3 ⊢; linear_combination r3
  have h1 := ig_raw hm hl 1; have h2 := ig_raw hm hl 2; have h3 := ig_raw hm hl 3; have h4 := ig_raw hm hl 4
  simp only [Nat.reduceAdd] at h1 h2 h3 h4
  rw [m2] at h1; rw [m3] at h2; rw [m4] at h3; rw [m5] at h4
  obtain ⟨hp, mv, sk, ku⟩ := moments_of_raw (invNormal_density hm hl).2 (hasMean_iff_raw.2 h1) h2 h3 h4
  have ev : μ ^ 2 + μ ^ 3 / l - μ ^ 2 = μ ^ 3 / l := by ring
  rw [ev] at mv sk ku
  refine ⟨mv, ?_, ?_⟩
  · convert sk using 1
    have e : μ ^ 3 / l = μ ^ 2 * (μ / l) := by ring
    rw [e, Real.sqrt_mul (by positivity), Real.sqrt_sq hm.le]
    have hq0 : 0 < √(μ / l) := Real.sqrt_pos.2 (by positivity)
    have hq := Real.mul_self_sqrt (show 0 ≤ μ / l by positivity)
    rw [eq_div_iff (by positivity)]
    have : 3 * √(μ / l) * (μ * √(μ / l)) ^ 3 = 3 * μ ^ 3 * (√(μ / l) * √(μ / l)) ^ 2 := by ring
    rw [this, hq]; field_simp; ring
  · convert ku using 1
    field_simp; ring
end
end Rstat.Spec
