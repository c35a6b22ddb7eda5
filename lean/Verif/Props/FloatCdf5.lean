import Verif.Props.FloatCdf4
import Verif.Props.Dist.Rayleigh
import Verif.Props.Dist.GEV

/-! C207, C209: Rayleigh, generalised Pareto and generalised extreme value distribution functions in
rounded arithmetic. -/
namespace Rstat
open F64 Spec Consts
set_option linter.unusedSectionVars false

section
variable [FP] [FP.Lawful] [FP.Libm]

theorem ninf_mul_pinf : ninf * pinf = ninf := by change F64.mul ninf pinf = ninf; simp [F64.mul, sinf]
theorem pinf_mul_ninf : pinf * ninf = ninf := by change F64.mul pinf ninf = ninf; simp [F64.mul, sinf]

theorem neg_sq_anti {x y : F64} (hx : 0 ≤ x) (hxy : x ≤ y) : -y * y ≤ -x * x := by
  have hn : ∀ {z : F64}, 0 ≤ z → -z * z ≠ nan := fun {z} hz => by
    rcases nonneg_cases hz with rfl | ⟨r, hr, _⟩
    · change ninf * pinf ≠ nan; rw [ninf_mul_pinf]; simp
    · exact ne_nan_of_ext (mul_fin_ext hr.neg hr) (round_ne_nan _)
  rcases nonneg_cases (le_trans' hx hxy) with rfl | ⟨s, hs, hs0⟩
  · change ninf * pinf ≤ _; rw [ninf_mul_pinf]; exact bot_le' (hn hx)
  · rcases nonneg_cases hx with rfl | ⟨r, hr, hr0⟩
    · rw [pinf_of_pinf_le hxy] at hs; exact absurd hs (by rintro (h | ⟨h, _⟩) <;> cases h)
    · have h := (hr.le_iff hs).1 hxy
      exact le_congr (mul_fin_ext hs.neg hs).symm (mul_fin_ext hr.neg hr).symm (round_mono (by nlinarith))

/-- C207: Rayleigh on `[0, +inf]` (the formula is not that of the Rayleigh law, see C75, but it is a distribution function) -/
theorem C207_rayleigh_partial {a : F64} {d : Rayleigh} (h : Rayleigh.new a = .ok d) (ha : a.isFinite) :
    FloatCDF d.cdf 0 pinf := by
  obtain ⟨h0, rfl⟩ := Rayleigh.new_ok.1 h
  obtain ⟨s, rfl, hs⟩ := finite_pos h0 ha
  refine FloatCDF.of (le_top' zero_ne_nan') (fun x y hx hxy _ => ?_) ?_ ?_
  · change 1 - F64.exp (-x * x / fin s * fin s / fin 2) ≤ 1 - F64.exp (-y * y / fin s * fin s / fin 2)
    exact const_sub_anti Is.one (exp_mono (div_const_mono two_pos (mul_const_mono hs (div_const_mono hs (neg_sq_anti hx hxy)))))
  · change (1 - F64.exp (-(0:F64) * 0 / fin s * fin s / fin 2)).Is 0
    have e1 : (-(0:F64) * 0).Is 0 := by rw [mul_finite Is.zero.neg Is.zero, if_pos (mul_zero _)]; exact szero_is _
    have e2 : (-(0:F64) * 0 / fin s).Is 0 := by rw [div_finite e1 (Is.fin s) hs.ne', if_pos rfl]; exact szero_is _
    have e3 : (-(0:F64) * 0 / fin s * fin s).Is 0 := by rw [mul_finite e2 (Is.fin s), if_pos (zero_mul _)]; exact szero_is _
    have e4 : (-(0:F64) * 0 / fin s * fin s / fin 2).Is 0 := by
      rw [div_finite e3 (Is.fin 2) two_ne_zero, if_pos rfl]; exact szero_is _
    rw [exp_zero e4]; exact one_sub_one (Is.fin 1)
  · change (1 - F64.exp (ninf * pinf / fin s * fin s / fin 2)).Is 1
    rw [ninf_mul_pinf, ninf_div_const hs, ninf_mul_const hs, ninf_div_const two_pos]
    exact one_sub_zero (Is.fin 0)

/-- C207 (violation): the Rayleigh cdf is symmetric: at `-inf` it is 1 -/
theorem C207_rayleigh_violated {a : F64} {d : Rayleigh} (h : Rayleigh.new a = .ok d) (ha : a.isFinite) :
    (d.cdf ninf).val.Is 1 := by
  obtain ⟨h0, rfl⟩ := Rayleigh.new_ok.1 h
  obtain ⟨s, rfl, hs⟩ := finite_pos h0 ha
  change (1 - F64.exp (pinf * ninf / fin s * fin s / fin 2)).Is 1
  rw [pinf_mul_ninf, ninf_div_const hs, ninf_mul_const hs, ninf_div_const two_pos]
  exact one_sub_zero (Is.fin 0)

/-- the exponent `-1/ζ`, as computed, of a positive finite shape: `-inf` or a finite number that is not positive -/
theorem neg_inv_cases {z : ℝ} (hz : 0 < z) : fin (-1) / fin z = ninf ∨ ∃ e, (fin (-1) / fin z).Is e ∧ e ≤ 0 := by
  have h1 : fin (-1) / fin z = F64.round (-1 / z) := by
    rw [div_finite (Is.fin _) (Is.fin z) hz.ne', if_neg (by norm_num)]
  rw [h1]
  by_cases hh : FP.huge (FP.rnd (-1 / z))
  · left
    have : F64.round (-1 / z) = if 0 < -1 / z then pinf else ninf := if_pos hh
    rw [this, if_neg (not_lt.2 (div_nonpos_of_nonpos_of_nonneg (by norm_num) hz.le))]
  · exact Or.inr ⟨_, round_is hh, rnd_pos_sign (div_nonpos_of_nonpos_of_nonneg (by norm_num) hz.le)⟩

theorem one_le_pos {a : F64} (h : 1 ≤ a) : 0 < a := lt_of_lt_of_le' ((Is.zero.lt_iff Is.one).2 one_pos) h

/-- powers of numbers `≥ 1` with the exponent `-1/ζ`: values in `[0, 1]`, decreasing in the base -/
theorem powf_neg_inv {z : ℝ} (hz : 0 < z) {a b : F64} (ha : 1 ≤ a) (h : a ≤ b) :
    b.powf (fin (-1) / fin z) ≤ a.powf (fin (-1) / fin z) := by
  rcases neg_inv_cases hz with he | ⟨e, he, h0⟩
  · rw [he]
    have key : ∀ {c : F64}, 1 ≤ c → c.powf ninf = fin 1 ∨ c.powf ninf = fin 0 ∧ fin 1 < c := fun {c} hc => by
      cases c with
      | fin r =>
        have h1 : 1 ≤ r := fin_le_fin.1 hc
        rcases h1.eq_or_lt with rfl | h1
        · left; simp [F64.powf]
        · right
          refine ⟨?_, fin_lt_fin.2 h1⟩
          have : ¬ |r| < 1 := by rw [abs_of_pos (by linarith)]; linarith
          have h2 : |r| ≠ 1 := by rw [abs_of_pos (by linarith)]; exact h1.ne'
          simp [F64.powf, h1.ne', this, h2]
      | pinf => right; exact ⟨by simp [F64.powf], ⟨_, _, rfl, rfl, EReal.coe_lt_top 1⟩⟩
      | negZero => exact absurd ((Is.one.le_iff Is.negZero).1 hc) (by norm_num)
      | nan => exact absurd rfl (ne_nan_right hc)
      | ninf => exact absurd rfl (nonneg_ne_ninf (le_trans' zero_le_one' hc))
    rcases key ha with h1 | ⟨h1, h2⟩
    · rcases key (le_trans' ha h) with h3 | ⟨h3, _⟩ <;> rw [h1, h3]
      · exact fin_le_fin.2 le_rfl
      · exact fin_le_fin.2 zero_le_one
    · rcases key (le_trans' ha h) with h3 | ⟨h3, _⟩
      · exfalso
        rcases key (le_trans' ha h) with h4 | ⟨h4, _⟩
        · have hlt : fin 1 < b := lt_of_lt_of_le' h2 h
          cases b with
          | fin r =>
            have h5 : 1 < r := fin_lt_fin.1 hlt
            have h6 : ¬ |r| < 1 := by rw [abs_of_pos (by linarith)]; linarith
            have h7 : |r| ≠ 1 := by rw [abs_of_pos (by linarith)]; exact h5.ne'
            simp [F64.powf, h5.ne', h6, h7] at h3
          | pinf => simp [F64.powf] at h3
          | negZero => exact absurd (((Is.fin 1).lt_iff Is.negZero).1 hlt) (by norm_num)
          | nan => exact absurd rfl (ne_nan_right (le_of_lt' hlt))
          | ninf => exact absurd rfl (nonneg_ne_ninf (le_trans' (le_trans' zero_le_one' ha) h))
        · rw [h3] at h4; simp at h4
      · rw [h1, h3]; exact fin_le_fin.2 le_rfl
  · rcases h0.eq_or_lt with rfl | h0
    · have : ∀ c : F64, c.powf (fin (-1) / fin z) = fin 1 := fun c => by
        unfold F64.powf
        rw [if_pos ⟨he.isFinite, he.toReal_eq⟩]
      rw [this, this]; exact fin_le_fin.2 le_rfl
    · exact (powf_anti he h0 (Or.inl (one_le_pos ha)) (Or.inl (one_le_pos (le_trans' ha h))) h).2

/-- C209: generalised Pareto on `[mu, +inf]`, when `-1/zeta` does not underflow to zero -/
theorem C209_gpd_partial {a b c : F64} {d : GeneralisedPareto} (h : GeneralisedPareto.new a b c = .ok d) (ha : a.isFinite)
    (hb : b.isFinite) (hc : c.isFinite) (hu : ¬ (fin (-1) / c).Is 0) : FloatCDF d.cdf a pinf := by
  obtain ⟨h0, h1, rfl⟩ := GeneralisedPareto.new_ok.1 h
  obtain ⟨s, rfl, hs⟩ := finite_pos h0 hb
  obtain ⟨z, rfl, hz⟩ := finite_pos h1 hc
  have base1 : ∀ {x : F64}, a ≤ x → 1 ≤ 1 + fin z * ((x - a) / fin s) := fun {x} hx => by
    refine one_le_one_add ?_
    have h2 := sub_nonneg' ha hx
    have h3 : (0:F64) ≤ (x - a) / fin s := by
      refine le_trans' (le_congr rfl (div_fin_ext Is.zero (Is.fin s) hs.ne').symm ?_) (div_const_mono hs h2)
      rw [zero_div]; exact (Is.zero.le_iff round_zero_is).2 le_rfl
    refine le_trans' (le_congr rfl (mul_fin_ext (Is.fin z) Is.zero).symm ?_) (const_mul_mono hz h3)
    rw [mul_zero]; exact (Is.zero.le_iff round_zero_is).2 le_rfl
  refine FloatCDF.of (le_top' ha.is.ne_nan) (fun x y hx hxy _ => ?_) ?_ ?_
  · change 1 - (1 + fin z * ((x - a) / fin s)).powf (fin (-1) / fin z) ≤ 1 - (1 + fin z * ((y - a) / fin s)).powf (fin (-1) / fin z)
    exact const_sub_anti Is.one (powf_neg_inv hz (base1 hx) (const_add_mono Is.one (const_mul_mono hz (z_mono ha hs hxy))))
  · change (1 - (1 + fin z * ((a - a) / fin s)).powf (fin (-1) / fin z)).Is 0
    have e1 : (a - a).Is 0 := by
      rcases add_eq_round ha.is ha.is.neg with h' | ⟨h', h'', _⟩
      · change (a + -a).Is 0
        rw [h', add_neg_cancel]; exact round_zero_is
      · rw [h'] at h''; cases h''
    have e2 : ((a - a) / fin s).Is 0 := by rw [div_finite e1 (Is.fin s) hs.ne', if_pos rfl]; exact szero_is _
    have e3 : (fin z * ((a - a) / fin s)).Is 0 := by rw [mul_finite (Is.fin z) e2, if_pos (mul_zero _)]; exact szero_is _
    rw [(one_add_zero e3).eq_fin one_ne_zero]
    rw [show (fin 1).powf (fin (-1) / fin z) = 1 from powf_one]; exact one_sub_one Is.one
  · change (1 - (1 + fin z * ((pinf - a) / fin s)).powf (fin (-1) / fin z)).Is 1
    rw [z_top ha hs, const_mul_pinf hz, fin_add_pinf Is.one]
    rcases neg_inv_cases hz with he | ⟨e, he, h0⟩
    · rw [he, show pinf.powf ninf = fin 0 by simp [F64.powf]]; exact one_sub_zero (Is.fin 0)
    · have h0 : e < 0 := lt_of_le_of_ne h0 (fun h => hu (h ▸ he))
      rw [powf_pinf_neg he h0]; exact one_sub_zero (Is.fin 0)

theorem powf_ninf_neg {e : F64} {s : ℝ} (he : e.Is s) (hs : s < 0) : (ninf.powf e).Is 0 := by
  have ee : e = fin s := he.eq_fin hs.ne
  subst ee
  have : ninf.powf (fin s) = szero (isOdd s) := by simp [F64.powf, hs.ne, not_lt.2 hs.le]
  rw [this]; exact szero_is _

/-- C209 (violation): the generalised Pareto cdf at `-inf` — its reported support is the whole line — is 1 -/
theorem C209_gpd_violated {a b c : F64} {e : ℝ} {d : GeneralisedPareto} (h : GeneralisedPareto.new a b c = .ok d) (ha : a.isFinite)
    (hb : b.isFinite) (hc : c.isFinite) (he : (fin (-1) / c).Is e) (he0 : e < 0) : (d.cdf ninf).val.Is 1 := by
  obtain ⟨h0, h1, rfl⟩ := GeneralisedPareto.new_ok.1 h
  obtain ⟨s, rfl, hs⟩ := finite_pos h0 hb
  obtain ⟨z, rfl, hz⟩ := finite_pos h1 hc
  change (1 - (1 + fin z * ((ninf - a) / fin s)).powf (fin (-1) / fin z)).Is 1
  rw [z_bot ha hs, const_mul_ninf hz, fin_add_ninf Is.one]
  exact one_sub_zero (powf_ninf_neg he he0)

theorem eps_cmp (c : F64) {z : ℝ} (hc : c.Is z) : (c - 0).ext = (F64.round z).ext := by
  have := add_ext hc Is.zero.neg
  rwa [neg_zero, add_zero] at this

/-- C209: generalised extreme value with a shape below the code's `1e-7` threshold: the Gumbel branch, the whole line -/
theorem C209_gev_small_partial {a b c : F64} {d : GeneralisedExtremeValue} (h : GeneralisedExtremeValue.new a b c = .ok d)
    (ha : a.isFinite) (hb : b.isFinite) (hc : c - 0 < F64.lit (1 / 10 ^ 7)) : FloatCDF d.cdf ninf pinf := by
  obtain ⟨h0, h1, rfl⟩ := GeneralisedExtremeValue.new_ok.1 h
  obtain ⟨s, rfl, hs⟩ := finite_pos h0 hb
  have e : ∀ x, (GeneralisedExtremeValue.cdf ⟨a, fin s, c⟩ x).val = F64.exp (-(F64.exp (-((x - a) / fin s)))) := fun x => by
    unfold GeneralisedExtremeValue.cdf GeneralisedExtremeValue.tFunc
    simp only
    rw [if_pos (show c - 0 < GeneralisedExtremeValue.eps from hc)]; rfl
  refine FloatCDF.of ninf_le_pinf (fun x y _ hxy _ => ?_) ?_ ?_
  · rw [e, e]; exact exp_mono (neg_anti (exp_mono (neg_anti (z_mono ha hs hxy))))
  · rw [e, z_bot ha hs]; exact Is.fin 0
  · rw [e, z_top ha hs]
    change (F64.exp (-(fin 0))).Is 1
    rw [exp_zero ((Is.fin 0).neg.congr neg_zero)]; exact Is.fin 1

theorem gev_cdf_eq {a b c : F64} (hc : ¬ c - 0 < F64.lit (1 / 10 ^ 7)) (x : F64) :
    (GeneralisedExtremeValue.cdf ⟨a, b, c⟩ x).val = F64.exp (-((1 + c * ((x - a) / b)).powf (fin (-1) / c))) := by
  unfold GeneralisedExtremeValue.cdf GeneralisedExtremeValue.tFunc
  simp only
  rw [if_neg (show ¬ c - 0 < GeneralisedExtremeValue.eps from hc)]; rfl


/-- C209: generalised extreme value with a shape of at least `1e-7`, where the computed `1 + zeta*(x-mu)/sigma` is positive (inside the
support of the law): valid, non-decreasing, and 1 at `+inf`. Missing from a full `FloatCDF`: see `C209_gev_violated`. -/
theorem C209_gev_partial {a b c : F64} {e : ℝ} {d : GeneralisedExtremeValue} (h : GeneralisedExtremeValue.new a b c = .ok d)
    (ha : a.isFinite) (hb : b.isFinite) (hf : c.isFinite) (hc : ¬ c - 0 < F64.lit (1 / 10 ^ 7)) (he : (fin (-1) / c).Is e) (he0 : e < 0) :
    (∀ x y : F64, 0 < 1 + c * ((x - a) / b) → x ≤ y →
      0 ≤ (d.cdf x).val ∧ (d.cdf x).val ≤ (d.cdf y).val ∧ (d.cdf y).val ≤ 1) ∧ (d.cdf pinf).val.Is 1 := by
  obtain ⟨h0, h1, rfl⟩ := GeneralisedExtremeValue.new_ok.1 h
  obtain ⟨s, rfl, hs⟩ := finite_pos h0 hb
  obtain ⟨z, rfl, hz⟩ := finite_pos h1 hf
  refine ⟨fun x y hx hxy => ?_, ?_⟩
  · rw [gev_cdf_eq hc, gev_cdf_eq hc]
    have hm := const_add_mono Is.one (const_mul_mono hz (z_mono ha hs hxy))
    have hy : 0 < 1 + fin z * ((y - a) / fin s) := lt_of_lt_of_le' hx hm
    obtain ⟨hp, hq⟩ := powf_anti he he0 (Or.inl hx) (Or.inl hy) hm
    refine ⟨exp_nonneg (ne_nan_left (neg_anti hq)), exp_mono (neg_anti hq), exp_le_one ?_⟩
    exact le_trans' (neg_anti hp) ((Is.zero.neg.le_iff Is.zero).2 (by norm_num))
  · rw [gev_cdf_eq hc, z_top ha hs, const_mul_pinf hz, fin_add_pinf Is.one, powf_pinf_neg he he0,
      exp_zero ((Is.fin 0).neg.congr neg_zero)]
    exact Is.fin 1

/-- C209 (violation): below the support of a generalised extreme value law with shape `≥ 1e-7` — at `-inf` — the cdf is 1, not 0;
`support()` is the whole line. -/
theorem C209_gev_violated {a b c : F64} {e : ℝ} {d : GeneralisedExtremeValue} (h : GeneralisedExtremeValue.new a b c = .ok d)
    (ha : a.isFinite) (hb : b.isFinite) (hf : c.isFinite) (hc : ¬ c - 0 < F64.lit (1 / 10 ^ 7)) (he : (fin (-1) / c).Is e) (he0 : e < 0) :
    (d.cdf ninf).val.Is 1 := by
  obtain ⟨h0, h1, rfl⟩ := GeneralisedExtremeValue.new_ok.1 h
  obtain ⟨s, rfl, hs⟩ := finite_pos h0 hb
  obtain ⟨z, rfl, hz⟩ := finite_pos h1 hf
  rw [gev_cdf_eq hc, z_bot ha hs, const_mul_ninf hz, fin_add_ninf Is.one,
    exp_zero ((powf_ninf_neg he he0).neg.congr neg_zero)]
  exact Is.fin 1
end

section
open B64
attribute [local instance] binary64 binary64_lawful B64.libm B64.specialFns

example : ∃ d, Rayleigh.new (fin 2) = .ok d ∧ FloatCDF d.cdf 0 pinf ∧ (d.cdf ninf).val.Is 1 := by
  have h : Rayleigh.new (fin 2) = .ok ⟨fin 2⟩ := Rayleigh.new_ok.2 ⟨fin_lt_fin.2 (by norm_num), rfl⟩
  exact ⟨_, h, C207_rayleigh_partial h trivial, C207_rayleigh_violated h trivial⟩

theorem neg_one_half : (fin (-1) / fin 2).Is (-(1 / 2) : ℝ) := by
  have r : B64.rnd (-1 / 2) = -(1 / 2) := by
    have := rnd_repr (-1) (-1) (by norm_num) (by norm_num)
    rw [show (((-1:ℤ):ℝ) * 2 ^ (-1:ℤ)) = -1 / 2 by norm_num] at this
    rw [this]; norm_num
  refine (div_is (Is.fin _) (Is.fin _) two_ne_zero ?_).congr r
  change ¬ FP.huge (B64.rnd _)
  rw [r]; exact not_huge_small (by rw [abs_neg, abs_of_pos] <;> norm_num)

example : ∃ d, GeneralisedPareto.new (fin 1) (fin 3) (fin 2) = .ok d ∧ FloatCDF d.cdf (fin 1) pinf ∧ (d.cdf ninf).val.Is 1 := by
  have h : GeneralisedPareto.new (fin 1) (fin 3) (fin 2) = .ok ⟨fin 1, fin 3, fin 2⟩ :=
    GeneralisedPareto.new_ok.2 ⟨fin_lt_fin.2 (by norm_num), fin_lt_fin.2 (by norm_num), rfl⟩
  exact ⟨_, h, C209_gpd_partial h trivial trivial trivial (fun h => absurd (h.eq neg_one_half) (by norm_num)),
    C209_gpd_violated h trivial trivial trivial neg_one_half (by norm_num)⟩

theorem two_not_small : ¬ fin 2 - 0 < F64.lit (1 / 10 ^ 7) := by
  intro h
  have h1 : (F64.lit (1 / 10 ^ 7)) ≤ 1 := by
    refine round_le_one ?_; norm_num
  have h2 : (fin 2 - 0 : F64).Is 2 := by
    refine (sub_is (Is.fin 2) Is.zero ?_).congr ?_ <;> rw [sub_zero]
    · change ¬ FP.huge (B64.rnd _)
      rw [show B64.rnd 2 = 2 by have := rnd_repr 2 0 (by norm_num) (by norm_num); simpa using this]
      exact not_huge_small (by norm_num)
    · change B64.rnd 2 = 2
      have := rnd_repr 2 0 (by norm_num) (by norm_num); simpa using this
  exact absurd ((h2.lt_iff Is.one).1 (lt_of_lt_of_le' h h1)) (by norm_num)

example : ∃ d, GeneralisedExtremeValue.new (fin 1) (fin 3) (fin 2) = .ok d ∧ (d.cdf ninf).val.Is 1 ∧ (d.cdf pinf).val.Is 1 ∧
    0 ≤ (d.cdf (fin 2)).val ∧ (d.cdf (fin 2)).val ≤ (d.cdf (fin 4)).val := by
  have h : GeneralisedExtremeValue.new (fin 1) (fin 3) (fin 2) = .ok ⟨fin 1, fin 3, fin 2⟩ :=
    GeneralisedExtremeValue.new_ok.2 ⟨fin_lt_fin.2 (by norm_num), fin_lt_fin.2 (by norm_num), rfl⟩
  have g := C209_gev_partial h trivial trivial trivial two_not_small neg_one_half (by norm_num)
  refine ⟨_, h, C209_gev_violated h trivial trivial trivial two_not_small neg_one_half (by norm_num), g.2, ?_⟩
  have g1 := g.1 (fin 2) (fin 4) ?_ (fin_le_fin.2 (by norm_num))
  · exact ⟨g1.1, g1.2.1⟩
  · refine one_le_pos (one_le_one_add ?_)
    have hd : (0:F64) ≤ fin 2 - fin 1 := sub_nonneg' trivial (fin_le_fin.2 (by norm_num))
    have h3 : (0:F64) ≤ (fin 2 - fin 1) / fin 3 := by
      refine le_trans' (le_congr rfl (div_fin_ext Is.zero (Is.fin 3) (by norm_num)).symm ?_) (div_const_mono (by norm_num) hd)
      rw [zero_div]; exact (Is.zero.le_iff round_zero_is).2 le_rfl
    refine le_trans' (le_congr rfl (mul_fin_ext (Is.fin 2) Is.zero).symm ?_) (const_mul_mono two_pos h3)
    rw [mul_zero]; exact (Is.zero.le_iff round_zero_is).2 le_rfl
end
end Rstat
