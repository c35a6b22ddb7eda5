import Verif.Props.FloatAccuracy5
import Verif.Lemmas.FloatRel7
import Verif.Props.FloatMoments2
import Verif.Props.Dist.GEV

/-! C266 continued: the generalised Pareto and extreme value laws. -/
set_option linter.unusedSectionVars false
namespace Rstat
open F64 Spec Consts
section
variable [FP] [FP.Lawful] [FP.Libm] [FP.Accurate]

/-- the base `1 + zeta (x - mu) / sigma` -/
theorem shape_arg {x a b c : F64} {r m s ζ : ℝ} (hx : x.Is r) (ha : a.Is m) (hb : b.Is s) (hc : c.Is ζ) (hs : 0 < s) (ζ0 : 0 < ζ) (ζ1 : ζ ≤ 2 ^ 60)
    (hrr : FP.rnd r = r) (hmm : FP.rnd m = m) (nh : ¬ FP.huge (FP.rnd (r - m))) (hz : |(r - m) / s| ≤ 2 ^ 100) :
    Within (1 + c * ((x - a) / b)) (1 + ζ * ((r - m) / s)) ((1 + |ζ * ((r - m) / s)|) / 2 ^ 49) := by
  have Z := zscore hx ha hb hs hrr hmm nh
  generalize (r - m) / s = z at *
  have p : (2:ℝ) ^ 100 < 2 ^ 500 := pow_lt_pow_right₀ (by norm_num) (by norm_num)
  rcases Z with ⟨Z, hZ, Ze⟩ | ⟨_, hb⟩ | ⟨_, hb⟩
  · have hM : |ζ * z| ≤ 2 ^ 160 := by
      rw [abs_mul, abs_of_pos ζ0, show (2:ℝ) ^ 160 = 2 ^ 60 * 2 ^ 100 by norm_num]
      gcongr
    have e0 : |ζ * Z - ζ * z| ≤ |ζ * z| / 2 ^ 51 + 1 / 2 ^ 60 := by
      rw [← mul_sub, abs_mul, abs_mul, abs_of_pos ζ0]
      calc ζ * |Z - z| ≤ ζ * (|z| / 2 ^ 51 + 1 / 2 ^ 120) := by gcongr
        _ = ζ * |z| / 2 ^ 51 + ζ * (1 / 2 ^ 120) := by ring
        _ ≤ ζ * |z| / 2 ^ 51 + 2 ^ 60 * (1 / 2 ^ 120) := by gcongr
        _ = _ := by norm_num
    have h1 := Within.round (M := |ζ * z|) (ρ := |ζ * z| * 7 / 2 ^ 53 + 1 / 2 ^ 59) e0 le_rfl (by
      have := abs_nonneg (ζ * z); generalize |ζ * z| = w at *; norm_num at *; linarith) (by
      have := abs_nonneg (ζ * z); generalize |ζ * z| = w at *; norm_num at *; linarith)
    have h2 : Within (c * ((x - a) / b)) (ζ * z) (|ζ * z| * 7 / 2 ^ 53 + 1 / 2 ^ 59) := by
      obtain ⟨y, hy, he⟩ := h1
      exact ⟨y, hy.of_ext (mul_fin_ext hc hZ).symm, he⟩
    refine Within.add (1 + |ζ * z|) (Within.exact Is.one) h2 ((abs_add_le _ _).trans (by rw [abs_one])) ?_ ?_
    all_goals have := abs_nonneg (ζ * z); generalize |ζ * z| = w at *; norm_num at *; linarith
  · exact absurd (hb.trans ((le_abs_self z).trans hz)) (not_le.2 p)
  · exact absurd ((by linarith : (2:ℝ) ^ 500 ≤ -z).trans ((neg_le_abs z).trans hz)) (not_le.2 p)

/-- the exponent `-1 / zeta` -/
theorem shape_exp {c : F64} {ζ : ℝ} (hc : c.Is ζ) (ζ0 : 1 / 2 ^ 40 ≤ ζ) (ζ1 : ζ ≤ 2 ^ 60) :
    ∃ E, (fin (-1) / c).Is E ∧ E < 0 ∧ |E - -1 / ζ| ≤ 1 / ζ / 2 ^ 52 := by
  have z0 : 0 < ζ := lt_of_lt_of_le (by positivity) ζ0
  have h1 : Rel (fin (-1)) (-1) 0 0 := Rel.exact (Is.fin _) (by norm_num) (by norm_num)
  have h2 : Rel c ζ 60 0 := Rel.exact hc (by rw [abs_of_pos z0]; norm_num at *; linarith) (by rw [abs_of_pos z0]; exact ζ1)
  obtain ⟨_, _, E, hE, he⟩ := h1.div h2 (by norm_num) (by norm_num)
  rw [abs_div, abs_neg, abs_one, abs_of_pos z0] at he
  have he' : |E - -1 / ζ| ≤ 1 / ζ / 2 ^ 52 := he.trans (le_of_eq (by push_cast; ring))
  refine ⟨E, hE, ?_, he'⟩
  have p : 0 < 1 / ζ := by positivity
  have := (abs_le.1 he').2
  have e : -1 / ζ = -(1 / ζ) := by ring
  rw [e] at this
  generalize 1 / ζ = y at *
  norm_num at *; linarith

/-- C266 (part): the generalised Pareto distribution function is within `(1 + 1 / zeta) 2^-47` of the real one from the location up to 2^100 scales
above it, for shapes between 2^-40 and 2^60. Tiny shapes lose all accuracy: see `C266_gpd_violated` -/
theorem C266_gpd_partial {a b c : F64} {m s ζ : ℝ} {d : GeneralisedPareto} (h : GeneralisedPareto.new a b c = .ok d) (fa : IsF64 a) (ha : a.Is m)
    (hb : b.Is s) (hc : c.Is ζ) (ζ0 : 1 / 2 ^ 40 ≤ ζ) (ζ1 : ζ ≤ 2 ^ 60) :
    AccurateCDF d.cdf (gpdCDF m s ζ) {r | m ≤ r ∧ (r - m) / s ≤ 2 ^ 100 ∧ ¬ FP.huge (FP.rnd (r - m))} ((1 + 1 / ζ) / 2 ^ 47) := by
  obtain ⟨h0, h1, rfl⟩ := GeneralisedPareto.new_ok.1 h
  have s0 := pos_of_lt h0 hb
  have z0 := pos_of_lt h1 hc
  rintro x r fx hx ⟨r0, r1, nh⟩
  have t0 : 0 ≤ (r - m) / s := div_nonneg (by linarith) s0.le
  have w0 : 0 ≤ ζ * ((r - m) / s) := mul_nonneg z0.le t0
  obtain ⟨W, hW, We⟩ := shape_arg hx ha hb hc s0 z0 ζ1 (fx r hx).1 (fa m ha).1 nh (by rwa [abs_of_nonneg t0])
  obtain ⟨E, hE, E0, Ee⟩ := shape_exp hc ζ0 ζ1
  have e : gpdCDF m s ζ r = 1 - (1 + ζ * ((r - m) / s)) ^ (-1 / ζ) := by
    unfold gpdCDF; split_ifs with h
    · rw [le_antisymm h r0, sub_self, zero_div, mul_zero, add_zero, Real.one_rpow, sub_self]
    · rfl
  rw [abs_of_nonneg w0] at We
  rw [e]
  have hdef : ∀ p : ℝ, (1 - (1 + c * ((x - a) / b)).powf (fin (-1) / c)).Is p →
      (GeneralisedPareto.cdf ⟨a, b, c⟩ x).val.Is p := fun p hp => hp
  generalize ζ * ((r - m) / s) = v at *
  have w1 : 1 ≤ 1 + v := by linarith
  obtain ⟨W0, hl⟩ := log_pert_eta (η := 1 / 2 ^ 49) (by linarith : 0 < 1 + v) (by positivity) (by norm_num) (We.trans (le_of_eq (by ring)))
  have iz : 0 < 1 / ζ := by positivity
  have L0 : 0 ≤ Real.log (1 + v) := Real.log_nonneg w1
  obtain ⟨Ee1, Ee2⟩ := abs_le.1 Ee
  have en : -1 / ζ = -(1 / ζ) := by ring
  rw [en] at Ee Ee1 Ee2 ⊢
  generalize 1 / ζ = y at *
  have hEy : -E ≤ 2 * y := by norm_num at *; linarith
  -- W at least 1: needed for the power to stay below 1; the computed base is a sum of 1 and a non-negative number
  have W1 : 1 ≤ W := by
    have cz : (0 : F64) ≤ c * ((x - a) / b) := by
      rw [hc.eq_fin z0.ne', hb.eq_fin s0.ne']; exact mul_nn z0 (nn_div s0 (sub_nonneg_of_le hx ha r0))
    exact (Is.one.le_iff hW).1 (one_le_one_add cz)
  have lW : 0 ≤ Real.log W := Real.log_nonneg W1
  -- the two perturbations
  have p1 : |Real.exp (-(-E * Real.log (1 + v))) - Real.exp (-(y * Real.log (1 + v)))| ≤ 1 / 2 ^ 50 + 1 / 2 ^ 119 := by
    refine expneg_pert (mul_nonneg iz.le L0) (mul_nonneg (by linarith) L0) ?_
    rw [← sub_mul, abs_mul, abs_mul, abs_of_nonneg L0, abs_of_pos iz]
    have : |-E - y| ≤ y / 2 ^ 51 := by
      rw [show -E - y = -(E - -y) by ring, abs_neg]; refine Ee.trans ?_; gcongr <;> norm_num
    have : |-E - y| * Real.log (1 + v) ≤ y / 2 ^ 51 * Real.log (1 + v) := by gcongr
    have h3 : y / 2 ^ 51 * Real.log (1 + v) = y * Real.log (1 + v) / 2 ^ 51 := by ring
    have h4 : (0:ℝ) ≤ 1 / 2 ^ 120 := by positivity
    linarith only [this, h3, h4]
  have p2 : |Real.exp (Real.log W * E) - Real.exp (-(-E * Real.log (1 + v)))| ≤ y / 2 ^ 47 := by
    refine (mvt_one Real.hasDerivAt_exp (fun u hu => ?_)).trans ?_
    · rw [abs_of_pos (Real.exp_pos u)]
      refine Real.exp_le_one_iff.2 (hu.2.trans (max_le ?_ ?_))
      · nlinarith
      · nlinarith
    · rw [show Real.log W * E - -(-E * Real.log (1 + v)) = E * (Real.log W - Real.log (1 + v)) by ring, abs_mul, abs_of_neg E0]
      calc -E * |Real.log W - Real.log (1 + v)| ≤ (2 * y) * (2 * (1 / 2 ^ 49)) := by gcongr
        _ = _ := by ring
  have hP : Within ((1 + c * ((x - a) / b)).powf (fin (-1) / c)) (W ^ E) (1 / 2 ^ 51 + 1 / 2 ^ 120) := by
    have P1 : W ^ E ≤ 1 := Real.rpow_le_one_of_one_le_of_nonpos W1 E0.le
    rcases pow_at hW hE W0 E0.ne with ⟨P, hP, _, hP2⟩ | ⟨_, hbig⟩
    · refine ⟨P, hP, hP2.trans ?_⟩; gcongr
    · have : (1:ℝ) < 2 ^ 1021 := one_lt_pow₀ (by norm_num) (by norm_num)
      exact absurd (hbig.trans P1) (not_le.2 this)
  rw [Real.rpow_def_of_pos W0] at hP
  rw [Real.rpow_def_of_pos (by linarith : 0 < 1 + v), show Real.log (1 + v) * -y = -(y * Real.log (1 + v)) by ring]
  have q0 := Real.exp_pos (Real.log W * E)
  have q1 : Real.exp (Real.log W * E) ≤ 1 := Real.exp_le_one_iff.2 (by nlinarith)
  obtain ⟨p, hp, he⟩ := Within.sub (ρ := 1 / 2 ^ 50) 1 (Within.exact Is.one) hP (by rw [abs_le]; constructor <;> linarith) (by norm_num) (by norm_num)
  refine ⟨p, hdef p hp, ?_⟩
  have t1 := abs_sub_le p (1 - Real.exp (Real.log W * E)) (1 - Real.exp (-(y * Real.log (1 + v))))
  rw [sub_sub_sub_cancel_left, abs_sub_comm (Real.exp (-(y * Real.log (1 + v))))] at t1
  have t2 := abs_sub_le (Real.exp (Real.log W * E)) (Real.exp (-(-E * Real.log (1 + v)))) (Real.exp (-(y * Real.log (1 + v))))
  have n : (1:ℝ) / 2 ^ 50 + (1 / 2 ^ 50 + 1 / 2 ^ 119) ≤ 1 / 2 ^ 47 := by norm_num
  have n2 : (1 + y) / 2 ^ 47 = 1 / 2 ^ 47 + y / 2 ^ 47 := by ring
  linarith only [t1, t2, p1, p2, he, n, n2]

/-- C266 (part): for shapes from 2^-23 to 2^60 the generalised extreme value distribution function is within `(1 + 1 / (zeta δ)) 2^-46` of the real one
wherever `1 + zeta (x - mu) / sigma` is at least `δ` (and `x` within 2^100 scales of the location): near the lower end of the support the cancellation in
that sum is amplified. Below the threshold 10^-7 on the shape the code computes another distribution function: see `C266_gev_violated` -/
theorem C266_gev_partial {a b c : F64} {m s ζ δ : ℝ} {d : GeneralisedExtremeValue} (h : GeneralisedExtremeValue.new a b c = .ok d) (fa : IsF64 a)
    (ha : a.Is m) (hb : b.Is s) (hc : c.Is ζ) (ζ0 : 1 / 2 ^ 23 ≤ ζ) (ζ1 : ζ ≤ 2 ^ 60) (δ0 : 1 / 2 ^ 40 ≤ δ) (δ1 : δ ≤ 1) :
    AccurateCDF d.cdf (gevCDF m s ζ) {r | δ ≤ 1 + ζ * ((r - m) / s) ∧ |(r - m) / s| ≤ 2 ^ 100 ∧ ¬ FP.huge (FP.rnd (r - m))}
      ((1 + 1 / (ζ * δ)) / 2 ^ 46) := by
  obtain ⟨h0, h1, rfl⟩ := GeneralisedExtremeValue.new_ok.1 h
  have s0 := pos_of_lt h0 hb
  have z0 := pos_of_lt h1 hc
  have d0 : 0 < δ := lt_of_lt_of_le (by positivity) δ0
  rintro x r fx hx ⟨r0, r1, nh⟩
  obtain ⟨W, hW, We⟩ := shape_arg hx ha hb hc s0 z0 ζ1 (fx r hx).1 (fa m ha).1 nh r1
  obtain ⟨E, hE, E0, Ee⟩ := shape_exp hc ((by norm_num : (1:ℝ) / 2 ^ 40 ≤ 1 / 2 ^ 23).trans ζ0) ζ1
  have e : gevCDF m s ζ r = Real.exp (-(1 + ζ * ((r - m) / s)) ^ (-1 / ζ)) := by
    unfold gevCDF
    rw [if_neg]
    intro hc
    have : ζ * ((r - m) / s) ≤ -1 := by
      have h2 : (r - m) / s ≤ -1 / ζ := by
        rw [div_le_div_iff₀ s0 z0]
        have h3 : r - m ≤ -(s / ζ) := by linarith
        have h4 := mul_le_mul_of_nonneg_right h3 z0.le
        rw [neg_mul, div_mul_cancel₀ _ z0.ne'] at h4; linarith
      calc ζ * ((r - m) / s) ≤ ζ * (-1 / ζ) := by gcongr
        _ = -1 := by field_simp
    linarith
  have hbr : ¬ c - 0 < GeneralisedExtremeValue.eps := by
    have hz : FP.rnd ((1:ℝ) / 10 ^ 7) ≤ FP.rnd (ζ - 0) := FP.Lawful.rnd_mono (by rw [sub_zero]; norm_num at *; linarith)
    have nh1 : ¬ FP.huge (FP.rnd (ζ - 0)) := fun hh => by
      have := huge_big hh
      rw [sub_zero, abs_of_pos z0] at this
      exact absurd (this.trans ζ1) (not_le.2 (pow_lt_pow_right₀ (by norm_num) (by norm_num)))
    have nh2 : ¬ FP.huge (FP.rnd ((1:ℝ) / 10 ^ 7)) := fun hh => by
      have h2 := huge_big hh
      have h3 : (1:ℝ) ≤ 2 ^ 1022 := one_le_pow₀ (by norm_num)
      rw [abs_of_pos (by positivity)] at h2
      have h4 := h3.trans h2
      norm_num at h4
    have h3 := sub_is hc Is.zero nh1
    have h4 : GeneralisedExtremeValue.eps.Is (FP.rnd ((1:ℝ) / 10 ^ 7)) := round_is nh2
    exact fun hlt => absurd ((h3.lt_iff h4).1 hlt) (not_lt.2 hz)
  have hdef : (GeneralisedExtremeValue.cdf ⟨a, b, c⟩ x).val = (-((1 + c * ((x - a) / b)).powf (fin (-1) / c))).exp := by
    unfold GeneralisedExtremeValue.cdf GeneralisedExtremeValue.tFunc Probability.newUnchecked; dsimp only; rw [if_neg hbr]
  rw [e, hdef]
  have am : |ζ * ((r - m) / s)| ≤ max 1 (ζ * ((r - m) / s)) := by
    rcases le_total 0 (ζ * ((r - m) / s)) with h | h
    · rw [abs_of_nonneg h]; exact le_max_right _ _
    · rw [abs_of_nonpos h]; exact le_trans (by linarith) (le_max_left _ _)
  generalize ζ * ((r - m) / s) = v at *
  have w0 : 0 < 1 + v := d0.trans_le r0
  have dy : 0 < 1 / δ := by positivity
  have dy2 : 1 / δ ≤ 2 ^ 40 := by rw [div_le_iff₀ d0]; rw [div_le_iff₀ (by positivity)] at δ0; linarith
  have dw : 1 ≤ 1 / δ * (1 + v) := by rw [one_div, ← div_eq_inv_mul, le_div_iff₀ d0, one_mul]; exact r0
  have d1 : 1 ≤ 1 / δ := by rw [le_div_iff₀ d0]; linarith
  have hη : |W - (1 + v)| ≤ 1 / δ / 2 ^ 48 * (1 + v) := by
    refine We.trans ?_
    have : 1 + |v| ≤ 2 * (1 / δ) * (1 + v) := by
      rcases le_max_iff.1 am with h | h
      · nlinarith
      · nlinarith
    calc (1 + |v|) / 2 ^ 49 ≤ (2 * (1 / δ) * (1 + v)) / 2 ^ 49 := by gcongr
      _ = _ := by ring
  obtain ⟨W0, hl⟩ := log_pert_eta w0 (by positivity) (by norm_num at *; linarith) hη
  have iz : 0 < 1 / ζ := by positivity
  obtain ⟨Ee1, Ee2⟩ := abs_le.1 Ee
  have en : -1 / ζ = -(1 / ζ) := by ring
  have ed : 1 / (ζ * δ) = 1 / ζ * (1 / δ) := by field_simp
  rw [en] at Ee Ee1 Ee2 ⊢
  rw [ed]
  generalize 1 / ζ = y at *
  generalize 1 / δ = D at *
  have hEy : -E ≤ 2 * y := by norm_num at *; linarith
  have p1 : |Real.exp (-Real.exp (E * Real.log (1 + v))) - Real.exp (-Real.exp (-(y * Real.log (1 + v))))| ≤ 1 / 2 ^ 50 + 1 / 2 ^ 119 := by
    refine mvt_rel (g := fun v : ℝ => Real.exp (-Real.exp v)) dexp_deriv ?_ (fun x _ => dexp_C x) (fun x _ => dexp_D x)
    rw [show E * Real.log (1 + v) - -(y * Real.log (1 + v)) = (E - -y) * Real.log (1 + v) by ring, abs_mul, abs_neg, abs_mul, abs_of_pos iz]
    have : |E - -y| ≤ y / 2 ^ 51 := by refine Ee.trans ?_; gcongr <;> norm_num
    have : |E - -y| * |Real.log (1 + v)| ≤ y / 2 ^ 51 * |Real.log (1 + v)| := by gcongr
    have h3 : y / 2 ^ 51 * |Real.log (1 + v)| = y * |Real.log (1 + v)| / 2 ^ 51 := by ring
    have h4 : (0:ℝ) ≤ 1 / 2 ^ 120 := by positivity
    linarith only [this, h3, h4]
  have p2 : |Real.exp (-Real.exp (Real.log W * E)) - Real.exp (-Real.exp (E * Real.log (1 + v)))| ≤ y * D / 2 ^ 46 := by
    refine (mvt_one (g := fun v : ℝ => Real.exp (-Real.exp v)) dexp_deriv (fun x _ => dexp_D x)).trans ?_
    rw [show Real.log W * E - E * Real.log (1 + v) = E * (Real.log W - Real.log (1 + v)) by ring, abs_mul, abs_of_neg E0]
    calc -E * |Real.log W - Real.log (1 + v)| ≤ (2 * y) * (2 * (D / 2 ^ 48)) := by gcongr
      _ = _ := by ring
  obtain ⟨p, hp, he⟩ := expow_within hW hE W0 E0.ne
  refine ⟨p, hp, ?_⟩
  rw [Real.rpow_def_of_pos W0] at he
  rw [Real.rpow_def_of_pos w0, show Real.log (1 + v) * -y = -(y * Real.log (1 + v)) by ring]
  have t1 := abs_sub_le p (Real.exp (-Real.exp (Real.log W * E))) (Real.exp (-Real.exp (-(y * Real.log (1 + v)))))
  have t2 := abs_sub_le (Real.exp (-Real.exp (Real.log W * E))) (Real.exp (-Real.exp (E * Real.log (1 + v)))) (Real.exp (-Real.exp (-(y * Real.log (1 + v)))))
  have n : (1:ℝ) / 2 ^ 49 + (1 / 2 ^ 50 + 1 / 2 ^ 119) ≤ 1 / 2 ^ 46 := by norm_num
  have n2 : (1 + y * D) / 2 ^ 46 = 1 / 2 ^ 46 + y * D / 2 ^ 46 := by ring
  linarith only [t1, t2, p1, p2, he, n, n2]
/-- the generalised extreme value law tends to the Gumbel law as the shape vanishes, at a linear rate -/
theorem gev_gumbel {ζ z : ℝ} (z0 : 0 < ζ) (hz : |ζ * z| ≤ 1 / 2) : |Real.exp (-Real.exp (-z)) - Real.exp (-(1 + ζ * z) ^ (-1 / ζ))| ≤ 5 * ζ := by
  obtain ⟨h1, h2⟩ := abs_le.1 hz
  have w : 0 < 1 + ζ * z := by linarith
  have l1 := Real.one_sub_inv_le_log_of_pos w
  have l2 := Real.log_le_sub_one_of_pos w
  have l3 : ζ * z - Real.log (1 + ζ * z) ≤ 2 * (ζ * z) ^ 2 := by
    have : ζ * z - (1 - (1 + ζ * z)⁻¹) = (ζ * z) ^ 2 * (1 + ζ * z)⁻¹ := by field_simp; ring
    have h3 : (1 + ζ * z)⁻¹ ≤ 2 := by rw [inv_le_comm₀ w (by norm_num)]; linarith
    have h4 : (ζ * z) ^ 2 * (1 + ζ * z)⁻¹ ≤ (ζ * z) ^ 2 * 2 := by gcongr
    linarith
  obtain ⟨u, hu⟩ : ∃ u, u = -(Real.log (1 + ζ * z) / ζ) := ⟨_, rfl⟩
  have e : Real.exp (-(1 + ζ * z) ^ (-1 / ζ)) = Real.exp (-Real.exp u) := by
    rw [Real.rpow_def_of_pos w, hu]; congr 3; ring
  have u1 : -z ≤ u := by
    rw [hu, neg_le_neg_iff, div_le_iff₀ z0]; linarith
  have u2 : u - -z ≤ 2 * ζ * z ^ 2 := by
    rw [hu, show -(Real.log (1 + ζ * z) / ζ) - -z = (ζ * z - Real.log (1 + ζ * z)) / ζ by field_simp; ring, div_le_iff₀ z0]
    calc _ ≤ _ := l3
      _ = _ := by ring
  have u3 : 0 ≤ z → u ≤ -(2 / 3 * z) := by
    intro hz0
    rw [hu, neg_le_neg_iff, le_div_iff₀ z0]
    have h3 : 1 - (1 + ζ * z)⁻¹ = ζ * z * (1 + ζ * z)⁻¹ := by field_simp; ring
    have h4 : 2 / 3 ≤ (1 + ζ * z)⁻¹ := by rw [le_inv_comm₀ (by norm_num) w]; norm_num; linarith
    have h5 : 0 ≤ ζ * z := by positivity
    nlinarith
  have big : ∀ v ∈ Set.uIcc (-z) u, z ^ 2 ≤ 9 / 4 * v ^ 2 := by
    intro v hv
    rw [Set.uIcc_of_le u1] at hv
    rcases le_total 0 z with h | h
    · have := hv.2.trans (u3 h); nlinarith
    · have := hv.1; nlinarith
  have K : ∀ v : ℝ, v ^ 2 * |Real.exp (-Real.exp v) * -Real.exp v| ≤ 1 := by
    intro v
    have t0 := Real.exp_pos v
    rw [abs_mul, abs_neg, abs_of_pos (Real.exp_pos _), abs_of_pos t0]
    have q := Real.exp_pos (-Real.exp v)
    rcases le_total 0 v with h | h
    · have h5 := sq_le_exp h
      have h6 := mul_exp_neg_le t0.le
      have : v ^ 2 * (Real.exp (-Real.exp v) * Real.exp v) ≤ Real.exp v * (Real.exp (-Real.exp v) * Real.exp v) := by gcongr
      calc _ ≤ _ := this
        _ = Real.exp v ^ 2 * Real.exp (-Real.exp v) := by ring
        _ ≤ 1 := h6
    · have h5 := mul_exp_neg_le (t := -v) (by linarith)
      rw [neg_neg, neg_sq] at h5
      have h6 : Real.exp (-Real.exp v) ≤ 1 := Real.exp_le_one_iff.2 (by linarith)
      have : v ^ 2 * (Real.exp (-Real.exp v) * Real.exp v) ≤ v ^ 2 * (1 * Real.exp v) := by gcongr
      linarith
  rw [e, abs_sub_comm]
  rcases eq_or_ne z 0 with rfl | hz0
  · have : u = 0 := by rw [hu]; simp
    rw [this, neg_zero, sub_self, abs_zero]; positivity
  have zp : 0 < z ^ 2 := by positivity
  have := Convex.norm_image_sub_le_of_norm_hasDerivWithin_le (f := fun v : ℝ => Real.exp (-Real.exp v))
    (f' := fun v => Real.exp (-Real.exp v) * -Real.exp v) (s := Set.uIcc (-z) u) (x := -z) (y := u) (C := 9 / 4 / z ^ 2)
    (fun x _ => (dexp_deriv x).hasDerivWithinAt) (fun v hv => by
      rw [Real.norm_eq_abs, le_div_iff₀ zp]
      have h7 := K v
      have h8 := big v hv
      have h9 := abs_nonneg (Real.exp (-Real.exp v) * -Real.exp v)
      generalize |Real.exp (-Real.exp v) * -Real.exp v| = g at *
      nlinarith) (convex_uIcc _ _) Set.left_mem_uIcc Set.right_mem_uIcc
  rw [Real.norm_eq_abs, Real.norm_eq_abs, abs_of_nonneg (by linarith : 0 ≤ u - -z)] at this
  refine this.trans ?_
  calc 9 / 4 / z ^ 2 * (u - -z) ≤ 9 / 4 / z ^ 2 * (2 * ζ * z ^ 2) := by gcongr
    _ = 9 / 2 * ζ := by field_simp; ring
    _ ≤ _ := by linarith

/-- C266 (part): for shapes below the threshold 10^-7 (up to 2^-24), where the code uses the Gumbel distribution function instead, the result is within
`5 zeta + 2^-47` of the real one wherever `|zeta (x - mu) / sigma| <= 1/2`: the approximation costs as much as the size of the shape -/
theorem C266_gev_small_partial {a b c : F64} {m s ζ : ℝ} {d : GeneralisedExtremeValue} (h : GeneralisedExtremeValue.new a b c = .ok d) (fa : IsF64 a)
    (ha : a.Is m) (hb : b.Is s) (hc : c.Is ζ) (ζ1 : ζ ≤ 1 / 2 ^ 24) :
    AccurateCDF d.cdf (gevCDF m s ζ) {r | |ζ * ((r - m) / s)| ≤ 1 / 2 ∧ ¬ FP.huge (FP.rnd (r - m))} (5 * ζ + 1 / 2 ^ 47) := by
  obtain ⟨h0, h1, rfl⟩ := GeneralisedExtremeValue.new_ok.1 h
  have s0 := pos_of_lt h0 hb
  have z0 := pos_of_lt h1 hc
  rintro x r fx hx ⟨r0, nh⟩
  have hbr : c - 0 < GeneralisedExtremeValue.eps := by
    have hz : FP.rnd (ζ - 0) ≤ FP.rnd ((1:ℝ) / 2 ^ 24) := FP.Lawful.rnd_mono (by rw [sub_zero]; exact ζ1)
    have e24 : FP.rnd ((1:ℝ) / 2 ^ 24) ≤ 1 / 2 ^ 24 * (1 + 1 / 2 ^ 50) := by
      have := (abs_le.1 (FP.Lawful.rnd_err ((1:ℝ) / 2 ^ 24))).2
      rw [abs_of_pos (by positivity)] at this
      have t := Within.tiny
      generalize (1:ℝ) / 2 ^ 1075 = η at *
      norm_num at *; linarith
    have e7 : 1 / 10 ^ 7 * (1 - 1 / 2 ^ 50) ≤ FP.rnd ((1:ℝ) / 10 ^ 7) := by
      have := (abs_le.1 (FP.Lawful.rnd_err ((1:ℝ) / 10 ^ 7))).1
      rw [abs_of_pos (by positivity)] at this
      have t := Within.tiny
      generalize (1:ℝ) / 2 ^ 1075 = η at *
      norm_num at *; linarith
    have nh1 : ¬ FP.huge (FP.rnd (ζ - 0)) := fun hh => by
      have := huge_big hh
      rw [sub_zero, abs_of_pos z0] at this
      have h3 : (1:ℝ) ≤ 2 ^ 1022 := one_le_pow₀ (by norm_num)
      have h4 := h3.trans (this.trans ζ1)
      norm_num at h4
    have nh2 : ¬ FP.huge (FP.rnd ((1:ℝ) / 10 ^ 7)) := fun hh => by
      have h2 := huge_big hh
      have h3 : (1:ℝ) ≤ 2 ^ 1022 := one_le_pow₀ (by norm_num)
      rw [abs_of_pos (by positivity)] at h2
      have h4 := h3.trans h2
      norm_num at h4
    have h3 := sub_is hc Is.zero nh1
    have h4 : GeneralisedExtremeValue.eps.Is (FP.rnd ((1:ℝ) / 10 ^ 7)) := round_is nh2
    refine (h3.lt_iff h4).2 ?_
    have : (1:ℝ) / 2 ^ 24 * (1 + 1 / 2 ^ 50) < 1 / 10 ^ 7 * (1 - 1 / 2 ^ 50) := by norm_num
    linarith
  have hg := C251_gumbel_partial (Gumbel.new_ok.2 ⟨h0, rfl⟩ : Gumbel.new a b = .ok ⟨a, b⟩) fa ha hb x r fx hx nh
  obtain ⟨p, hp, he⟩ := hg
  have hdef : (GeneralisedExtremeValue.cdf ⟨a, b, c⟩ x).val = (Gumbel.cdf ⟨a, b⟩ x).val := by
    unfold GeneralisedExtremeValue.cdf GeneralisedExtremeValue.tFunc Probability.newUnchecked; dsimp only; rw [if_pos hbr]; rfl
  rw [hdef]
  refine ⟨p, hp, ?_⟩
  have e : gevCDF m s ζ r = Real.exp (-(1 + ζ * ((r - m) / s)) ^ (-1 / ζ)) := by
    unfold gevCDF
    rw [if_neg]
    intro hc
    have : ζ * ((r - m) / s) ≤ -1 := by
      have h2 : (r - m) / s ≤ -1 / ζ := by
        rw [div_le_div_iff₀ s0 z0]
        have h3 : r - m ≤ -(s / ζ) := by linarith
        have h4 := mul_le_mul_of_nonneg_right h3 z0.le
        rw [neg_mul, div_mul_cancel₀ _ z0.ne'] at h4; linarith
      calc ζ * ((r - m) / s) ≤ ζ * (-1 / ζ) := by gcongr
        _ = -1 := by field_simp
    have := (abs_le.1 r0).1
    linarith
  have hh := gev_gumbel z0 r0
  rw [e]
  unfold gumbelCDF at he
  rw [neg_div] at he
  have t := abs_sub_le p (Real.exp (-Real.exp (-((r - m) / s)))) (Real.exp (-(1 + ζ * ((r - m) / s)) ^ (-1 / ζ)))
  linarith only [t, he, hh]
end

section
open B64
attribute [local instance] binary64 binary64_lawful B64.libm B64.specialFns B64.accurate

/-- C266 (violation): the uniform law on an interval of width 2^-60 starting at 1 has its distribution function at 1 equal to 1 (the upper bound rounds
to the lower one); the real one is 0 -/
theorem C266_uniform_violated {ε : ℝ} (hε : ε < 1) : ∃ d, UniformF.new (fin 1) (fin (1 / 2 ^ 60)) = .ok d ∧ IsF64 (fin 1) ∧ IsF64 (fin (1 / 2 ^ 60)) ∧
    ¬ AccurateCDF d.cdf (uniformCDF 1 (1 + 1 / 2 ^ 60)) Set.univ ε := by
  have f1 : IsF64 (fin 1) := by have := isF64_pow_inv 0 (by norm_num); rwa [pow_zero, div_one] at this
  refine ⟨_, UniformF.new_ok.2 ⟨lt_of_pos (by positivity) (Is.fin _), rfl⟩, f1, isF64_pow_inv _ (by norm_num), fun H => ?_⟩
  obtain ⟨p, hp, he⟩ := H (fin 1) 1 f1 (Is.fin _) trivial
  have hu : (fin 1 + fin (1 / 2 ^ 60)) = fin 1 := one_add_absorb (by positivity) (by norm_num)
  have e1 : p = 1 := by
    unfold UniformF.cdf at hp; dsimp only at hp
    rw [hu, if_neg (fun h => lt_irrefl _ (fin_lt_fin.1 h)), if_pos ((Is.fin (1:ℝ)).le_iff (Is.fin 1) |>.2 le_rfl)] at hp
    exact hp.eq (Is.fin 1)
  unfold uniformCDF at he
  rw [e1, if_neg (lt_irrefl _), if_neg (by norm_num), sub_self, zero_div, sub_zero, abs_one] at he
  linarith

/-- C266 (violation): a generalised Pareto law with shape 2^-60 has its distribution function at 1 equal to 0, because `1 + zeta` rounds to 1;
the real one is above 3/5 -/
theorem C266_gpd_violated : ∃ d, GeneralisedPareto.new (fin 0) (fin 1) (fin (1 / 2 ^ 60)) = .ok d ∧ IsF64 (fin 0) ∧ IsF64 (fin 1) ∧
    IsF64 (fin (1 / 2 ^ 60)) ∧ ¬ AccurateCDF d.cdf (gpdCDF 0 1 (1 / 2 ^ 60)) (Set.Ici 0) (3 / 5) := by
  have f1 : IsF64 (fin 1) := by have := isF64_pow_inv 0 (by norm_num); rwa [pow_zero, div_one] at this
  refine ⟨_, GeneralisedPareto.new_ok.2 ⟨lt_of_pos (by positivity) (Is.fin _), lt_of_pos (by positivity) (Is.fin _), rfl⟩,
    isF64_of B64.rnd_zero (by rw [abs_zero]; positivity), f1, isF64_pow_inv _ (by norm_num), fun H => ?_⟩
  obtain ⟨p, hp, he⟩ := H (fin 1) 1 f1 (Is.fin _) (Set.mem_Ici.2 zero_le_one)
  have z1 : ((fin 1 - fin 0) / fin 1).Is 1 := by
    have h1 := sub_is (Is.fin (1:ℝ)) (Is.fin 0) (by rw [sub_zero, F64.rnd_one]; exact not_huge_one)
    rw [sub_zero, F64.rnd_one] at h1
    have h2 := div_is h1 (Is.fin 1) one_ne_zero (by rw [div_one, F64.rnd_one]; exact not_huge_one)
    rwa [div_one, F64.rnd_one] at h2
  have z2 : (fin (1 / 2 ^ 60) * ((fin 1 - fin 0) / fin 1)).Is (1 / 2 ^ 60) := by
    obtain ⟨h1, h2⟩ := isF64_pow_inv 60 (by norm_num) _ (Is.fin _)
    have h3 := mul_is (Is.fin ((1:ℝ) / 2 ^ 60)) z1 (by rw [mul_one, h1]; exact h2)
    rwa [mul_one, h1] at h3
  have z3 : (1 : F64) + fin (1 / 2 ^ 60) * ((fin 1 - fin 0) / fin 1) = fin 1 := by
    rw [z2.eq_fin (by positivity)]; exact one_add_absorb (by positivity) (by norm_num)
  have e1 : p = 0 := by
    unfold GeneralisedPareto.cdf Probability.newUnchecked at hp; dsimp only at hp
    have h1 : (fin 1).powf (fin (-1) / fin (1 / 2 ^ 60)) = fin 1 := by
      unfold F64.powf; split_ifs with h1 h2
      · rfl
      · rfl
      · exact absurd ⟨trivial, rfl⟩ h2
    rw [z3, h1] at hp
    have h2 := sub_is Is.one (Is.fin (1:ℝ)) (by rw [sub_self, F64.rnd_zero]; exact not_huge_small (by norm_num))
    rw [sub_self, F64.rnd_zero] at h2
    exact hp.eq h2
  have key : ∀ ζ : ℝ, 0 < ζ → ζ ≤ 1 / 100 → ¬ |0 - gpdCDF 0 1 ζ 1| ≤ 3 / 5 := by
    intro ζ z0 z1
    have w : 0 < 1 + ζ := by linarith
    unfold gpdCDF
    rw [if_neg (by norm_num), sub_zero, div_one, mul_one, zero_sub, abs_neg, Real.rpow_def_of_pos w]
    have l1 := Real.one_sub_inv_le_log_of_pos w
    have l2 : 1 / (1 + ζ) ≤ Real.log (1 + ζ) / ζ := by
      rw [div_le_div_iff₀ w z0, one_mul]
      have : (1 - (1 + ζ)⁻¹) * (1 + ζ) = ζ := by field_simp; ring
      nlinarith
    have l3 : 99 / 100 ≤ 1 / (1 + ζ) := by rw [div_le_div_iff₀ (by norm_num) w]; linarith
    have l4 : Real.log (1 + ζ) * (-1 / ζ) ≤ -(99 / 100) := by
      rw [show Real.log (1 + ζ) * (-1 / ζ) = -(Real.log (1 + ζ) / ζ) by ring]; linarith
    have l5 : Real.exp (-(99 / 100)) < 2 / 5 := by
      have h1 := Real.quadratic_le_exp_of_nonneg (x := 99 / 100) (by norm_num)
      have h2 := Real.exp_one_gt_d9
      have h3 := Real.add_one_le_exp (-(1 / 100 : ℝ))
      have h4 : Real.exp (99 / 100) = Real.exp 1 * Real.exp (-(1 / 100)) := by rw [← Real.exp_add]; norm_num
      have h5 : 5 / 2 < Real.exp (99 / 100) := by rw [h4]; nlinarith
      rw [Real.exp_neg, inv_lt_comm₀ (Real.exp_pos _) (by norm_num)]; linarith
    have l6 := Real.exp_le_exp.2 l4
    rw [not_le]
    refine lt_of_lt_of_le ?_ (le_abs_self _)
    linarith
  rw [e1] at he
  exact key _ (by positivity) (by norm_num) he

/-- C266 (violation): a generalised extreme value law with shape 2^-24 has its distribution function at 1 off by more than 2^-31, because shapes below
10^-7 are treated as zero -/
theorem C266_gev_violated : ∃ d, GeneralisedExtremeValue.new (fin 0) (fin 1) (fin (1 / 2 ^ 24)) = .ok d ∧ IsF64 (fin 0) ∧ IsF64 (fin 1) ∧
    IsF64 (fin (1 / 2 ^ 24)) ∧ ¬ AccurateCDF d.cdf (gevCDF 0 1 (1 / 2 ^ 24)) (Set.Icc 0 1) (1 / 2 ^ 31) := by
  have f1 : IsF64 (fin 1) := by have := isF64_pow_inv 0 (by norm_num); rwa [pow_zero, div_one] at this
  have f0 : IsF64 (fin 0) := isF64_of B64.rnd_zero (by rw [abs_zero]; positivity)
  have hb1 : (0 : F64) < fin 1 := lt_of_pos (by positivity) (Is.fin _)
  refine ⟨_, GeneralisedExtremeValue.new_ok.2 ⟨hb1, lt_of_pos (by positivity) (Is.fin _), rfl⟩,
    f0, f1, isF64_pow_inv _ (by norm_num), fun H => ?_⟩
  obtain ⟨p, hp, he⟩ := H (fin 1) 1 f1 (Is.fin _) ⟨zero_le_one, le_rfl⟩
  have hbr : fin (1 / 2 ^ 24) - 0 < GeneralisedExtremeValue.eps := by
    have e24 : B64.rnd ((1:ℝ) / 2 ^ 24) = 1 / 2 ^ 24 := (isF64_pow_inv 24 (by norm_num) _ (Is.fin _)).1
    have e7 : 1 / 10 ^ 7 * (1 - 1 / 2 ^ 50) ≤ FP.rnd ((1:ℝ) / 10 ^ 7) := by
      have := (abs_le.1 (FP.Lawful.rnd_err ((1:ℝ) / 10 ^ 7))).1
      rw [abs_of_pos (by positivity)] at this
      have t := Within.tiny
      generalize (1:ℝ) / 2 ^ 1075 = η at *
      norm_num at *; linarith
    have nh2 : ¬ FP.huge (FP.rnd ((1:ℝ) / 10 ^ 7)) := fun hh => by
      have h2 := huge_big hh
      have h3 : (1:ℝ) ≤ 2 ^ 1022 := one_le_pow₀ (by norm_num)
      rw [abs_of_pos (by positivity)] at h2
      have h4 := h3.trans h2
      norm_num at h4
    have h3 : (fin (1 / 2 ^ 24) - 0).Is (1 / 2 ^ 24) := by
      have := sub_is (Is.fin ((1:ℝ) / 2 ^ 24)) Is.zero (by
        rw [sub_zero]; show ¬ binary64.huge (B64.rnd _); rw [e24]; exact not_huge_small (by norm_num))
      rw [sub_zero] at this
      exact this.congr e24
    have h4 : GeneralisedExtremeValue.eps.Is (FP.rnd ((1:ℝ) / 10 ^ 7)) := round_is nh2
    refine (h3.lt_iff h4).2 ?_
    have : (1:ℝ) / 2 ^ 24 < 1 / 10 ^ 7 * (1 - 1 / 2 ^ 50) := by norm_num
    linarith
  obtain ⟨q, hq, hqe⟩ := C251_gumbel_partial (Gumbel.new_ok.2 ⟨hb1, rfl⟩ : Gumbel.new (fin 0) (fin 1) = .ok ⟨fin 0, fin 1⟩) f0 (Is.fin 0) (Is.fin 1)
    (fin 1) 1 f1 (Is.fin _) (by
      show ¬ FP.huge (FP.rnd ((1:ℝ) - 0)); rw [sub_zero, F64.rnd_one]; exact not_huge_one)
  have hdef : (GeneralisedExtremeValue.cdf ⟨fin 0, fin 1, fin (1 / 2 ^ 24)⟩ (fin 1)).val = (Gumbel.cdf ⟨fin 0, fin 1⟩ (fin 1)).val := by
    unfold GeneralisedExtremeValue.cdf GeneralisedExtremeValue.tFunc Probability.newUnchecked; dsimp only; rw [if_pos hbr]; rfl
  rw [hdef] at hp
  rw [hp.eq hq] at he
  have key : ∀ ζ : ℝ, 0 < ζ → ζ ≤ 1 / 100 → ζ / 48 ≤ gumbelCDF 0 1 1 - gevCDF 0 1 ζ 1 := by
    intro ζ z0 z1
    have w : 0 < 1 + ζ := by linarith
    have iz : 0 < 1 / ζ := by positivity
    unfold gumbelCDF gevCDF
    rw [if_neg (by linarith), sub_zero, div_one, div_one, mul_one, Real.rpow_def_of_pos w]
    have l1 : Real.log (1 + ζ) ≤ ζ - ζ ^ 2 / 4 := by
      rw [Real.log_le_iff_le_exp w]
      refine le_trans ?_ (Real.quadratic_le_exp_of_nonneg (by nlinarith))
      nlinarith [mul_pos z0 z0, mul_pos (mul_pos z0 z0) z0]
    have l2 : -1 + ζ / 4 ≤ Real.log (1 + ζ) * (-1 / ζ) := by
      rw [mul_div_assoc', le_div_iff₀ z0]; nlinarith
    have e1 : 1 / 3 ≤ Real.exp (-1) := by
      rw [Real.exp_neg, ← one_div]; have := Real.exp_one_lt_d9
      exact one_div_le_one_div_of_le (Real.exp_pos 1) (by linarith)
    have e2 : Real.exp (-1) ≤ 1 / 2 := by
      rw [Real.exp_neg, ← one_div]; have := Real.exp_one_gt_d9
      exact one_div_le_one_div_of_le (by norm_num) (by linarith)
    have l3 : Real.exp (-1) * (1 + ζ / 4) ≤ Real.exp (Real.log (1 + ζ) * (-1 / ζ)) := by
      refine le_trans ?_ (Real.exp_le_exp.2 l2)
      rw [Real.exp_add]
      have := Real.add_one_le_exp (ζ / 4)
      gcongr; linarith
    have l4 : Real.exp (-1) + ζ / 12 ≤ Real.exp (Real.log (1 + ζ) * (-1 / ζ)) := by nlinarith
    have l5 : Real.exp (-Real.exp (Real.log (1 + ζ) * (-1 / ζ))) ≤ Real.exp (-Real.exp (-1)) * Real.exp (-(ζ / 12)) := by
      rw [← Real.exp_add]; exact Real.exp_le_exp.2 (by linarith)
    have l6 : Real.exp (-(ζ / 12)) ≤ 1 - ζ / 24 := by
      have h1 := Real.add_one_le_exp (ζ / 12)
      have h2 : Real.exp (-(ζ / 12)) * Real.exp (ζ / 12) = 1 := by rw [← Real.exp_add, neg_add_cancel, Real.exp_zero]
      have h3 := Real.exp_pos (-(ζ / 12))
      nlinarith
    have l7 : 1 / 2 ≤ Real.exp (-Real.exp (-1)) := by have := Real.add_one_le_exp (-Real.exp (-1)); linarith
    have l8 : Real.exp (-Real.exp (-1)) * Real.exp (-(ζ / 12)) ≤ Real.exp (-Real.exp (-1)) * (1 - ζ / 24) := by gcongr
    nlinarith
  have hk := key (1 / 2 ^ 24) (by positivity) (by norm_num)
  obtain ⟨h1, h2⟩ := abs_le.1 he
  obtain ⟨h3, h4⟩ := abs_le.1 hqe
  generalize gevCDF 0 1 (1 / 2 ^ 24) 1 = A at *
  generalize gumbelCDF 0 1 1 = B at *
  norm_num at *; linarith
end

/-! ### non-vacuity: ordinary parameters, in binary64, at an argument of the set -/
section
open B64
attribute [local instance] binary64 binary64_lawful B64.libm B64.specialFns B64.accurate
example : ∃ p : ℝ, (UniformF.cdf ⟨fin 4, fin 2, 1 / fin 2⟩ (fin 4)).val.Is p ∧ |p - uniformCDF 4 (4 + 2) 4| ≤ 1 / 2 ^ 49 + |4| / 2 / 2 ^ 52 := by
  have f4 : IsF64 (fin 4) := by have := isF64_pow 2 (by norm_num); norm_num at this; exact this
  exact C266_uniform_partial (l := 4) (w := 2) (UniformF.new_ok.2 ⟨lt_of_pos (by norm_num) (Is.fin _), rfl⟩) f4 (Is.fin _) (Is.fin _)
    ((one_div_le_one_div_of_le one_pos (one_le_pow₀ (by norm_num))).trans (by norm_num))
    ((by norm_num : (2:ℝ) ≤ 2 ^ 1).trans (pow_le_pow_right₀ (by norm_num) (by norm_num))) (by rw [abs_of_pos] <;> norm_num)
    (fin 4) 4 f4 (Is.fin _) trivial
example : ∃ p : ℝ, (GeneralisedPareto.cdf ⟨fin 4, fin 2, fin (1 / 2)⟩ (fin 8)).val.Is p ∧
    |p - gpdCDF 4 2 (1 / 2) 8| ≤ (1 + 1 / (1 / 2)) / 2 ^ 47 := by
  have f4 : IsF64 (fin 4) := by have := isF64_pow 2 (by norm_num); norm_num at this; exact this
  have f8 : IsF64 (fin 8) := by have := isF64_pow 3 (by norm_num); norm_num at this; exact this
  exact C266_gpd_partial (m := 4) (s := 2) (ζ := 1 / 2)
    (GeneralisedPareto.new_ok.2 ⟨lt_of_pos (by norm_num) (Is.fin _), lt_of_pos (by norm_num) (Is.fin _), rfl⟩) f4 (Is.fin _)
    (Is.fin _) (Is.fin _) (by norm_num) (by norm_num) (fin 8) 8 f8 (Is.fin _)
    ⟨by norm_num, by norm_num, sub_no_overflow (by
      rw [abs_of_pos (by norm_num), show (8:ℝ) = 2 ^ 3 by norm_num]; exact pow_le_pow_right₀ (by norm_num) (by norm_num)) (by
      rw [abs_of_pos (by norm_num), show (4:ℝ) = 2 ^ 2 by norm_num]; exact pow_le_pow_right₀ (by norm_num) (by norm_num))⟩
example : ∃ p : ℝ, (GeneralisedExtremeValue.cdf ⟨fin 4, fin 2, fin (1 / 2)⟩ (fin 8)).val.Is p ∧
    |p - gevCDF 4 2 (1 / 2) 8| ≤ (1 + 1 / (1 / 2 * (1 / 2))) / 2 ^ 46 := by
  have f4 : IsF64 (fin 4) := by have := isF64_pow 2 (by norm_num); norm_num at this; exact this
  have f8 : IsF64 (fin 8) := by have := isF64_pow 3 (by norm_num); norm_num at this; exact this
  exact C266_gev_partial (m := 4) (s := 2) (ζ := 1 / 2) (δ := 1 / 2)
    (GeneralisedExtremeValue.new_ok.2 ⟨lt_of_pos (by norm_num) (Is.fin _), lt_of_pos (by norm_num) (Is.fin _), rfl⟩) f4 (Is.fin _)
    (Is.fin _) (Is.fin _) (by norm_num) (by norm_num) (by norm_num) (by norm_num) (fin 8) 8 f8 (Is.fin _)
    ⟨by norm_num, by norm_num, sub_no_overflow (by
      rw [abs_of_pos (by norm_num), show (8:ℝ) = 2 ^ 3 by norm_num]; exact pow_le_pow_right₀ (by norm_num) (by norm_num)) (by
      rw [abs_of_pos (by norm_num), show (4:ℝ) = 2 ^ 2 by norm_num]; exact pow_le_pow_right₀ (by norm_num) (by norm_num))⟩
example : ∃ p : ℝ, (Kumaraswamy.cdf ⟨fin 3, fin 2⟩ (fin (1 / 2))).val.Is p ∧ |p - kumaraswamyCDF 3 2 (1 / 2)| ≤ (2 + 1) / 2 ^ 49 := by
  have f := isF64_pow_inv 1 (by norm_num)
  rw [pow_one] at f
  exact C266_kumaraswamy_partial (p := 3) (q := 2) (Kumaraswamy.new_ok.2 ⟨lt_of_pos (by norm_num) (Is.fin _), lt_of_pos (by norm_num) (Is.fin _), rfl⟩)
    (Is.fin _) (Is.fin _) (by norm_num) (fin (1 / 2)) (1 / 2) f (Is.fin _) ⟨by norm_num, by norm_num⟩
end
end Rstat
