import Verif.Lemmas.FloatRel6
import Verif.Props.Dist.Weibull
import Verif.Props.Dist.Frechet
import Verif.Props.Dist.Kumaraswamy
import Verif.Props.Dist.Gumbel
import Verif.Props.Dist.GEV
import Verif.Props.Dist.LogNormal
import Verif.Props.Dist.Uniform
import Verif.Props.Dist.Exponential
import Verif.Props.Dist.FDist
import Verif.Props.Dist.BetaPrime
import Verif.Props.Dist.Beta

/-! C255: medians and modes in floating point. First part: the accurate ones. -/
set_option linter.unusedSectionVars false
namespace Rstat
open F64 Spec Consts Real

/-! The true medians in closed form, read off the exact theorems. -/
section exactReals
attribute [local instance] exactFP exactFP_exact

theorem exp_median {l : ℝ} (hl : 0 < l) : expCDF l (1 / l * Real.log 2) = 1 / 2 := by
  have hd : Exponential.new (fin l) = .ok ⟨fin l⟩ := Exponential.new_ok.2 ⟨lt_of_pos hl (Is.fin _), rfl⟩
  obtain ⟨-, -, -, -, -, -, -, -, h, -⟩ := C61_exponential hd (Is.fin l)
  obtain ⟨x, hx, e⟩ := h
  have : x = 1 / l * Real.log 2 := is_uniq hx (by unfold Exponential.median Exponential.mean; fev)
  rwa [← this]

theorem rayleigh_median {s : ℝ} (hs : 0 < s) : rayleighCDF s (s * √(2 * Real.log 2)) = 1 / 2 := by
  have l2 : 0 < Real.log 2 := Real.log_pos (by norm_num)
  unfold rayleighCDF
  rw [if_neg (not_le.2 (by positivity))]
  rw [mul_pow, Real.sq_sqrt (by positivity), show -(s ^ 2 * (2 * Real.log 2)) / (2 * s ^ 2) = -Real.log 2 by field_simp, Real.exp_neg, Real.exp_log (by norm_num)]
  norm_num

theorem rpow_inv_cancel {x a : ℝ} (hx : 0 ≤ x) (ha : a ≠ 0) : (x ^ (1 / a)) ^ a = x := by rw [← Real.rpow_mul hx, one_div_mul_cancel ha, Real.rpow_one]

theorem pareto_median {m a : ℝ} (hm : 0 < m) (ha : 0 < a) : paretoCDF m a (m * 2 ^ (1 / a)) = 1 / 2 := by
  have p : (1:ℝ) < 2 ^ (1 / a) := Real.one_lt_rpow (by norm_num) (by positivity)
  unfold paretoCDF
  rw [if_neg (not_le.2 (by nlinarith)), div_mul_cancel_left₀ hm.ne', Real.inv_rpow (by positivity), rpow_inv_cancel (by norm_num) ha.ne']
  norm_num

theorem weibull_median {l k : ℝ} (hl : 0 < l) (hk : 0 < k) : weibullCDF l k (l * Real.log 2 ^ (1 / k)) = 1 / 2 := by
  have l2 : 0 < Real.log 2 := Real.log_pos (by norm_num)
  unfold weibullCDF
  rw [if_neg (not_le.2 (by positivity)), mul_div_cancel_left₀ _ hl.ne', rpow_inv_cancel l2.le hk.ne', Real.exp_neg, Real.exp_log (by norm_num)]
  norm_num

theorem frechet_median {a : ℝ} (ha : 0 < a) : frechetCDF a (1 / Real.log 2 ^ (1 / a)) = 1 / 2 := by
  have l2 : 0 < Real.log 2 := Real.log_pos (by norm_num)
  unfold frechetCDF
  rw [if_neg (not_le.2 (by positivity)), one_div, Real.inv_rpow (by positivity), Real.rpow_neg (by positivity), inv_inv, rpow_inv_cancel l2.le ha.ne',
    Real.exp_neg, Real.exp_log (by norm_num)]
  norm_num

theorem gumbel_median {m s : ℝ} (hs : 0 < s) : gumbelCDF m s (m - s * Real.log (Real.log 2)) = 1 / 2 := by
  have l2 : 0 < Real.log 2 := Real.log_pos (by norm_num)
  unfold gumbelCDF
  rw [show -(m - s * Real.log (Real.log 2) - m) / s = Real.log (Real.log 2) by field_simp; ring, Real.exp_log l2, Real.exp_neg, Real.exp_log (by norm_num)]
  norm_num

theorem gpd_median {m s z : ℝ} (hs : 0 < s) (hz : 0 < z) : gpdCDF m s z (m + s * (2 ^ z - 1) / z) = 1 / 2 := by
  have p : (1:ℝ) < 2 ^ z := Real.one_lt_rpow (by norm_num) hz
  have p' : (0:ℝ) < 2 ^ z - 1 := by linarith
  have q : 0 < s * (2 ^ z - 1) / z := by positivity
  unfold gpdCDF
  rw [if_neg (not_le.2 (by linarith)), show 1 + z * ((m + s * (2 ^ z - 1) / z - m) / s) = 2 ^ z by field_simp; ring, ← Real.rpow_mul (by norm_num),
    mul_div_cancel₀ _ hz.ne', Real.rpow_neg_one]
  norm_num

theorem gev_median {m s z : ℝ} (hs : 0 < s) (hz : 0 < z) : gevCDF m s z (m + s * (Real.log 2 ^ (-z) - 1) / z) = 1 / 2 := by
  have l2 : 0 < Real.log 2 := Real.log_pos (by norm_num)
  have p : 0 < Real.log 2 ^ (-z) := by positivity
  have q : 0 < s * Real.log 2 ^ (-z) / z := by positivity
  have e : s * (Real.log 2 ^ (-z) - 1) / z = s * Real.log 2 ^ (-z) / z - s / z := by ring
  unfold gevCDF
  rw [if_neg (not_le.2 (by rw [e]; linarith)), show 1 + z * ((m + s * (Real.log 2 ^ (-z) - 1) / z - m) / s) = Real.log 2 ^ (-z) by field_simp; ring,
    ← Real.rpow_mul l2.le, show -z * (-1 / z) = 1 by field_simp, Real.rpow_one, Real.exp_neg, Real.exp_log (by norm_num)]
  norm_num

theorem kuma_median {a b : ℝ} (ha : 0 < a) (hb : 0 < b) : kumaraswamyCDF a b ((1 - 2 ^ (-1 / b)) ^ (1 / a)) = 1 / 2 := by
  have p : (2:ℝ) ^ (-1 / b) < 1 := Real.rpow_lt_one_of_one_lt_of_neg (by norm_num) (by rw [neg_div]; have : 0 < 1 / b := by positivity
                                                                                       linarith)
  have p0 : (0:ℝ) < 2 ^ (-1 / b) := by positivity
  have q : (1 - (2:ℝ) ^ (-1 / b)) ^ (1 / a) < 1 := Real.rpow_lt_one (by linarith) (by linarith) (by positivity)
  have q0 : 0 ≤ (1 - (2:ℝ) ^ (-1 / b)) ^ (1 / a) := Real.rpow_nonneg (by linarith) _
  unfold kumaraswamyCDF
  rw [if_neg (not_lt.2 q0), if_neg (not_le.2 q), rpow_inv_cancel (by linarith) ha.ne', sub_sub_cancel, ← Real.rpow_mul (by norm_num),
    div_mul_cancel₀ _ hb.ne', Real.rpow_neg_one]
  norm_num

theorem logNormal_median {μ v : ℝ} : logNormalCDF μ v (Real.exp μ) = 1 / 2 := by
  unfold logNormalCDF
  rw [if_neg (not_le.2 (Real.exp_pos _)), Real.log_exp, sub_self, zero_div, Phi_zero]

theorem uniform_quantile {l w p : ℝ} (hw : 0 < w) (h0 : 0 < p) (h1 : p ≤ 1) : IsQuantile (uniformCDF l (l + w)) p (l + p * w) := by
  refine isQuantile_of ?_ fun y hy => ?_
  · unfold uniformCDF
    rw [if_neg (by nlinarith)]
    split_ifs with h
    · nlinarith
    · rw [add_sub_cancel_left, add_sub_cancel_left, mul_div_cancel_right₀ _ hw.ne']
  · unfold uniformCDF
    split_ifs with h2 h3
    · exact h0
    · nlinarith
    · rw [div_lt_iff₀ (by linarith)]; linarith

end exactReals
section
variable [FP] [FP.Lawful] [FP.Libm] [FP.Accurate] {a b c : F64} {μ s t α β p q : ℝ} {j k n : ℕ}

theorem Rel.close40 (h : Rel a t k n) (hn : n ≤ 4096) : RelClose a t (1 / 2 ^ 40) := by
  obtain ⟨-, -, y, hy, he⟩ := h
  refine ⟨y, hy, he.trans ?_⟩
  have hn' : (n:ℝ) ≤ 4096 := by exact_mod_cast hn
  have : (n:ℝ) / 2 ^ 52 ≤ 1 / 2 ^ 40 := by rw [div_le_div_iff₀ (by positivity) (by positivity)]; linarith
  gcongr

/-- adding a location -/
theorem Rel.loc_add' {ε : ℝ} (ha : a.Is μ) (hμ : |μ| ≤ 2 ^ 900) (hb : Rel b q k n) (hk : k ≤ 900) (hn : n ≤ 1000000) (hε : ((n:ℝ) + 4) / 2 ^ 52 ≤ ε) :
    ScaleClose (a + b) (μ + q) (|μ| + |q|) ε := by
  have q0 := hb.pos_abs
  obtain ⟨b1, b2, y, hy, hye⟩ := hb
  have c1 := Rel.unit_small hn
  have y2 : |y| ≤ 2 * |q| := by
    have := abs_add_le (y - q) q
    rw [sub_add_cancel] at this
    nlinarith
  have s2 : |μ + y| ≤ 2 * (|μ| + |q|) := by
    refine (abs_add_le _ _).trans ?_
    have := abs_nonneg μ
    linarith
  have q2 : |q| ≤ 2 ^ 900 := b2.trans (size_grow hk).1
  have big : |μ + y| ≤ 2 ^ 1020 := by
    have h902 : (2:ℝ) ^ 902 ≤ 2 ^ 1020 := pow_le_pow_right₀ (by norm_num) (by norm_num)
    have e902 : (2:ℝ) ^ 902 = 2 ^ 900 * 4 := by rw [show (902:ℕ) = 900 + 2 by norm_num, pow_add]; norm_num
    rw [e902] at h902
    refine le_trans ?_ h902
    clear h902 e902
    generalize (2:ℝ) ^ 900 = M at *
    linarith only [s2, q2, hμ]
  obtain ⟨R, hR, hRe⟩ := round_near big
  refine ⟨R, hR.of_ext (add_ext ha hy).symm, ?_⟩
  have tn := tiny_scale ((size_grow hk).2.trans b1)
  have t1 := abs_add_le (R - (μ + y)) (y - q)
  rw [show R - (μ + y) + (y - q) = R - (μ + q) by ring] at t1
  have m0 := abs_nonneg μ
  generalize (1:ℝ) / 2 ^ 1075 = τ at *
  have h3 : |μ + y| / 2 ^ 53 ≤ 2 * (|μ| + |q|) / 2 ^ 53 := by gcongr
  clear big q2 hμ b1 b2
  refine le_trans ?_ (mul_le_mul_of_nonneg_right hε (by positivity))
  have e : ((n:ℝ) + 4) / 2 ^ 52 * (|μ| + |q|) = n / 2 ^ 52 * |q| + n / 2 ^ 52 * |μ| + 4 / 2 ^ 52 * |μ| + 4 / 2 ^ 52 * |q| := by ring
  have : (0:ℝ) ≤ n / 2 ^ 52 * |μ| := by positivity
  rw [e]
  generalize (n:ℝ) / 2 ^ 52 * |q| = A at *
  generalize (n:ℝ) / 2 ^ 52 * |μ| = B at *
  norm_num at hRe tn h3 ⊢
  linarith only [hRe, tn, h3, t1, m0, q0, hye, this]

theorem Rel.loc_add (ha : a.Is μ) (hμ : |μ| ≤ 2 ^ 900) (hb : Rel b q k n) (hk : k ≤ 900) (hn : n ≤ 1000) : ScaleClose (a + b) (μ + q) (|μ| + |q|) (1 / 2 ^ 40) := by
  have hn' : (n:ℝ) ≤ 1000 := by exact_mod_cast hn
  exact Rel.loc_add' ha hμ hb hk (by omega) (by rw [div_le_div_iff₀ (by positivity) (by positivity)]; nlinarith)

/-- C255 (exponential and Rayleigh laws): the median to relative error `2^-40`; the modes are exact. -/
theorem C255_exponential {d : Exponential} (h : Exponential.new a = .ok d) (ha : a.Is s) (hs : Ordinary s) :
    (∃ m, expCDF s m = 1 / 2 ∧ RelClose d.median m (1 / 2 ^ 40)) ∧ d.modes = [0] ∧ IsMode (expPDF s) 0 := by
  obtain ⟨_, rfl⟩ := Exponential.new_ok.1 h
  have s0 := hs.pos
  refine ⟨⟨_, exp_median s0, ?_⟩, rfl, fun x => ?_⟩
  · exact ((Rel.one.div (Rel.ord ha hs) (by norm_num) (by norm_num)).mul Rel.ln_two (by norm_num) (by norm_num)).close40 (by norm_num)
  · unfold expPDF
    rw [if_pos le_rfl, mul_zero, neg_zero, Real.exp_zero, mul_one]
    split_ifs with hx
    · exact mul_le_of_le_one_right s0.le (Real.exp_le_one_iff.2 (by nlinarith))
    · exact s0.le

/-- C255 (Rayleigh law): the median is within relative error `2^-40` of the point where the distribution function is one half. -/
theorem C255_rayleigh {d : Rayleigh} (h : Rayleigh.new a = .ok d) (ha : a.Is s) (hs : Ordinary s) :
    ∃ m, rayleighCDF s m = 1 / 2 ∧ RelClose d.median m (1 / 2 ^ 40) := by
  obtain ⟨_, rfl⟩ := Rayleigh.new_ok.1 h
  have l2 : 0 < Real.log 2 := Real.log_pos (by norm_num)
  exact ⟨_, rayleigh_median hs.pos, ((Rel.ord ha hs).mul (((Rel.num 2 (by norm_num)).mul Rel.ln_two (by norm_num) (by norm_num)).sqrt (by positivity)
    (by norm_num) (by norm_num)) (by norm_num) (by norm_num)).close40 (by norm_num)⟩

/-- the exponent `1/α` for shapes above `1/16` -/
theorem Rel.recip (hb : b.Is α) (hα : Ordinary α) : Rel (1 / b) (1 / α) 67 1 := Rel.one.div (Rel.ord hb hα) (by norm_num) (by norm_num)

theorem recip_le {x C : ℝ} (hx : 1 / C ≤ x) (hC : 0 < C) : 0 < x ∧ 1 / x ≤ C := by
  have x0 : 0 < x := lt_of_lt_of_le (by positivity) hx
  refine ⟨x0, ?_⟩
  rw [div_le_iff₀ (by positivity)] at *
  linarith

/-- C255 (Pareto law, shape at least 1/16): the median; the mode is exact. -/
theorem C255_pareto {d : Pareto} (h : Pareto.new a b = .ok d) (ha : a.Is s) (hb : b.Is α) (hs : Ordinary s) (hα : Ordinary α) (h16 : 1 / 16 ≤ α) :
    ∃ m, paretoCDF s α m = 1 / 2 ∧ RelClose d.median m (1 / 2 ^ 40) := by
  obtain ⟨_, rfl⟩ := Pareto.new_ok.1 h
  have l2 : 0 < Real.log 2 := Real.log_pos (by norm_num)
  have l1 := Real.log_two_lt_d9
  obtain ⟨α0, hr⟩ := recip_le h16 (by norm_num)
  have r0 : 0 < 1 / α := by positivity
  have w := (Rel.num 2 (by norm_num)).powf 16 16 (Rel.recip hb hα) (by norm_num) (by rw [abs_of_pos (by positivity)]; push_cast; nlinarith)
    (by rw [abs_of_pos r0]; exact_mod_cast hr) (by norm_num) (by norm_num) (by norm_num) (by norm_num)
  exact ⟨_, pareto_median hs.pos α0, ((Rel.ord ha hs).mul w (by norm_num) (by norm_num)).close40 (by norm_num)⟩

theorem Rel.ln_two_pow (hb : b.Is α) (hα : Ordinary α) (h16 : 1 / 16 ≤ α) : Rel ((2 : F64).ln.powf (1 / b)) (Real.log 2 ^ (1 / α)) 16 403 := by
  obtain ⟨α0, hr⟩ := recip_le h16 (by norm_num)
  have r0 : 0 < 1 / α := by positivity
  have l2 : 0 < Real.log 2 := Real.log_pos (by norm_num)
  obtain ⟨g1, g2⟩ := log_log_two
  have w := Rel.ln_two.powf 8 16 (Rel.recip hb hα) l2 (by rw [abs_mul, abs_of_pos r0, abs_of_neg (by linarith)]; push_cast; nlinarith)
    (by rw [abs_of_pos r0]; exact_mod_cast hr) (by norm_num) (by norm_num) (by norm_num) (by norm_num)
  exact w.mono (by norm_num) (by norm_num)

/-- C255 (Weibull law, shape at least 1/16): the median. -/
theorem C255_weibull {d : Weibull} (h : Weibull.new a b = .ok d) (ha : a.Is s) (hb : b.Is α) (hs : Ordinary s) (hα : Ordinary α) (h16 : 1 / 16 ≤ α) :
    ∃ m, weibullCDF s α m = 1 / 2 ∧ RelClose d.median m (1 / 2 ^ 40) := by
  obtain ⟨_, _, rfl⟩ := Weibull.new_ok.1 h
  exact ⟨_, weibull_median hs.pos hα.pos, ((Rel.ord ha hs).mul (Rel.ln_two_pow hb hα h16) (by norm_num) (by norm_num)).close40 (by norm_num)⟩

/-- C255 (Fréchet law, shape at least 1/16): median and mode. -/
theorem C255_frechet {d : Frechet} (h : Frechet.new a = .ok d) (ha : a.Is α) (hα : Ordinary α) (h16 : 1 / 16 ≤ α) :
    (∃ m, frechetCDF α m = 1 / 2 ∧ RelClose d.median m (1 / 2 ^ 40)) ∧ ∃ y m, d.modes = [y] ∧ IsMode (frechetPDF α) m ∧ RelClose y m (1 / 2 ^ 40) := by
  obtain ⟨_, rfl⟩ := Frechet.new_ok.1 h
  obtain ⟨α0, hr⟩ := recip_le h16 (by norm_num)
  have r0 : 0 < 1 / α := by positivity
  refine ⟨⟨_, frechet_median hα.pos, (Rel.one.div (Rel.ln_two_pow ha hα h16) (by norm_num) (by norm_num)).close40 (by norm_num)⟩,
    _, _, rfl, frechet_mode α0, ?_⟩
  have r := Rel.ord ha hα
  have w := r.div ((Rel.one.mono (k' := 60) (by norm_num) le_rfl).add r one_pos α0 (by norm_num) (by norm_num)) (by norm_num) (by norm_num)
  have q0 : 0 < α / (1 + α) := by positivity
  have lg : |1 / α * Real.log (α / (1 + α))| ≤ (64:ℕ) := by
    have l0 : Real.log (α / (1 + α)) ≤ 0 := Real.log_nonpos q0.le (by rw [div_le_one (by positivity)]; linarith)
    have l1 : -Real.log (α / (1 + α)) ≤ 3 := by
      rw [← Real.log_inv, inv_div, Real.log_le_iff_le_exp (by positivity), add_div, div_self α0.ne']
      have e3 : Real.exp 3 = Real.exp 1 ^ 3 := by rw [← Real.exp_nat_mul]; norm_num
      have := Real.exp_one_gt_d9
      have : (2.7:ℝ) ^ 3 ≤ Real.exp 1 ^ 3 := by gcongr; linarith
      rw [e3]
      norm_num at this
      linarith
    rw [abs_mul, abs_of_pos r0, abs_of_nonpos l0]
    push_cast
    nlinarith
  exact (w.powf 64 16 (Rel.recip ha hα) q0 lg (by rw [abs_of_pos r0]; exact_mod_cast hr) (by norm_num) (by norm_num) (by norm_num) (by norm_num)).close40 (by norm_num)

/-- C255 (Gumbel law): the median, on the scale of location and spread. -/
theorem C255_gumbel {d : Gumbel} (h : Gumbel.new a b = .ok d) (ha : a.Is μ) (hb : b.Is s) (hμ : |μ| ≤ 2 ^ 900) (hs : Ordinary s) :
    ∃ m, gumbelCDF μ s m = 1 / 2 ∧ ScaleClose d.median m (|μ| + s) (1 / 2 ^ 40) := by
  obtain ⟨_, rfl⟩ := Gumbel.new_ok.1 h
  refine ⟨_, gumbel_median hs.pos, ?_⟩
  have w := ((Rel.ord hb hs).mul Rel.ln_ln_two (by norm_num) (by norm_num)).neg
  obtain ⟨y, hy, he⟩ := Rel.loc_add ha hμ w (by norm_num) (by norm_num)
  refine ⟨y, hy, ?_⟩
  rw [sub_eq_add_neg]
  refine he.trans ?_
  obtain ⟨g1, g2⟩ := Rel.log_log_two
  have s0 := hs.pos
  rw [abs_neg, abs_mul, abs_of_pos s0, abs_of_neg (show Real.log (Real.log 2) < 0 by linarith)]
  gcongr
  nlinarith

/-- C255 (uniform law): every quantile above `2^-60`, in particular the median, on the scale of the bounds. -/
theorem C255_uniform {d : UniformF} (h : UniformF.new a b = .ok d) (ha : a.Is μ) (hb : b.Is s) (hμ : |μ| ≤ 2 ^ 900) (hs : Ordinary s) :
    (∀ (u : F64) (p : ℝ), u.Is p → 1 / 2 ^ 60 ≤ p → p ≤ 1 →
      ∃ m, IsQuantile (uniformCDF μ (μ + s)) p m ∧ ScaleClose (d.quantile ⟨u⟩) m (|μ| + s) (1 / 2 ^ 40)) ∧
    ∃ m, uniformCDF μ (μ + s) m = 1 / 2 ∧ ScaleClose d.median m (|μ| + s) (1 / 2 ^ 40) := by
  obtain ⟨_, rfl⟩ := UniformF.new_ok.1 h
  have s0 := hs.pos
  have key : ∀ {x : F64} {p : ℝ} {n : ℕ}, Rel x (p * s) 121 n → n ≤ 1000 → 0 < p → p ≤ 1 → ScaleClose (a + x) (μ + p * s) (|μ| + s) (1 / 2 ^ 40) := by
    intro x p n hx hn p0 p1
    obtain ⟨y, hy, he⟩ := Rel.loc_add ha hμ hx (by norm_num) hn
    refine ⟨y, hy, he.trans ?_⟩
    rw [abs_of_pos (mul_pos p0 s0)]
    gcongr
    nlinarith
  refine ⟨fun u p hu h0 h1 => ?_, ?_⟩
  · have p0 : 0 < p := lt_of_lt_of_le (by positivity) h0
    refine ⟨_, uniform_quantile s0 p0 h1, ?_⟩
    have r : Rel u p 60 0 := Rel.ord hu ⟨h0, h1.trans (one_le_pow₀ (by norm_num))⟩
    exact key ((r.mul (Rel.ord hb hs) (by norm_num) (by norm_num)).mono (by norm_num) le_rfl) (by norm_num) p0 h1
  · refine ⟨μ + 1 / 2 * s, ?_, ?_⟩
    · unfold uniformCDF
      rw [if_neg (by linarith), if_neg (by linarith), add_sub_cancel_left, add_sub_cancel_left, mul_div_cancel_right₀ _ s0.ne']
    · exact key ((((Rel.ord hb hs).div (Rel.num 2 (by norm_num)) (by norm_num) (by norm_num)).congr (by ring)).mono (by norm_num) le_rfl)
        (by norm_num) (by norm_num) (by norm_num)

/-- C255 (log-normal law): the median `exp μ`, for `|μ| ≤ 400`. -/
theorem C255_lognormal {d : LogNormal} {v : ℝ} (h : LogNormal.new a b = .ok d) (ha : a.Is μ) (_ : b.Is v) (hμ : |μ| ≤ 400) :
    ∃ m, logNormalCDF μ v m = 1 / 2 ∧ RelClose d.median m (1 / 2 ^ 40) := by
  refine ⟨_, logNormal_median, ?_⟩
  have e : d.median = a.exp := by
    obtain ⟨_, rfl⟩ := LogNormal.new_ok.1 h
    rfl
  rw [e]
  obtain ⟨z1, z2⟩ := exp_size (L := 400) (by exact_mod_cast hμ)
  have sp := Real.exp_pos μ
  have fin := Rel.exp_shift (N := 0) (x := μ) (by norm_num) (by simp) (FP.Accurate.exp_acc μ)
  obtain ⟨R, hR, hRe⟩ := Rel.round (n := 2) (y := FP.fexp μ) (t := Real.exp μ) (k := 2 * 400)
    (by rwa [abs_of_pos sp]) (by rwa [abs_of_pos sp]) (by norm_num) (by norm_num) (by
      rw [abs_of_pos sp]
      refine fin.trans ?_
      gcongr
      norm_num)
  refine ⟨R, by rw [exp_fin ha]; exact hR, hRe.trans ?_⟩
  rw [abs_of_pos sp]
  exact mul_le_mul_of_nonneg_right (by norm_num) sp.le

/-- C255 (generalised Pareto law, shape between 1/16 and 16): the median. -/
theorem C255_gpd {d : GeneralisedPareto} {z : ℝ} (h : GeneralisedPareto.new a b c = .ok d) (ha : a.Is μ) (hb : b.Is s) (hc : c.Is z) (hμ : |μ| ≤ 2 ^ 900)
    (hs : Ordinary s) (h1 : 1 / 16 ≤ z) (h2 : z ≤ 16) :
    ∃ m, gpdCDF μ s z m = 1 / 2 ∧ ScaleClose d.median m (|μ| + |m - μ|) (1 / 2 ^ 40) := by
  obtain ⟨_, _, rfl⟩ := GeneralisedPareto.new_ok.1 h
  have z0 : 0 < z := by linarith
  have l2 := Real.log_two_gt_d9
  have l3 := Real.log_two_lt_d9
  refine ⟨_, gpd_median hs.pos z0, ?_⟩
  have rz : Rel c z 60 0 := Rel.ord hc ⟨le_trans (by norm_num) h1, h2.trans (by norm_num)⟩
  have w := (Rel.num 2 (by norm_num)).powf 12 16 rz (by norm_num) (by rw [abs_of_pos (by positivity)]; push_cast; nlinarith)
    (by rw [abs_of_pos z0]; exact_mod_cast h2) (by norm_num) (by norm_num) (by norm_num) (by norm_num)
  have lo : z * Real.log 2 ≤ 2 ^ z - 1 := by
    have := Real.add_one_le_exp (z * Real.log 2)
    rw [Real.rpow_def_of_pos (by norm_num), mul_comm (Real.log 2)]
    linarith
  have lo' : 1 / 24 ≤ (2:ℝ) ^ z - 1 := le_trans (by nlinarith) lo
  have hi : (2:ℝ) ^ z ≤ 65536 := by
    calc (2:ℝ) ^ z ≤ 2 ^ (16:ℝ) := Real.rpow_le_rpow_of_exponent_le (by norm_num) h2
      _ = 65536 := by rw [show (16:ℝ) = ((16:ℕ):ℝ) by norm_num, Real.rpow_natCast]; norm_num
  have d1 := w.sub_amp (k := 24) 49 (Rel.one.mono (by norm_num) (by norm_num)) (by rw [abs_of_pos (by linarith)]; refine le_trans ?_ lo'; norm_num)
    (by rw [abs_of_pos (by linarith)]; norm_num; linarith)
    (by rw [abs_of_pos (by linarith), abs_one, abs_of_pos (by linarith)]; push_cast; linarith) (by norm_num) (by norm_num)
  have m1 := ((Rel.ord hb hs).mul d1 (by norm_num) (by norm_num)).div rz (by norm_num) (by norm_num)
  rw [add_sub_cancel_left]
  exact Rel.loc_add ha hμ m1 (by norm_num) (by norm_num)

/-- C255 (generalised extreme value law, shape between 1/16 and 16): median and mode, to `2^-32`. -/
theorem C255_gev {d : GeneralisedExtremeValue} {z : ℝ} (h : GeneralisedExtremeValue.new a b c = .ok d) (ha : a.Is μ) (hb : b.Is s) (hc : c.Is z)
    (hμ : |μ| ≤ 2 ^ 900) (hs : Ordinary s) (h1 : 1 / 16 ≤ z) (h2 : z ≤ 16) :
    (∃ m, gevCDF μ s z m = 1 / 2 ∧ ScaleClose d.median m (|μ| + |m - μ|) (1 / 2 ^ 32)) ∧
    ∃ y m, d.modes = [y] ∧ IsMode (gevPDF μ s z) m ∧ ScaleClose y m (|μ| + |m - μ|) (1 / 2 ^ 32) := by
  obtain ⟨_, _, rfl⟩ := GeneralisedExtremeValue.new_ok.1 h
  have z0 : 0 < z := by linarith
  have rz : Rel c z 60 0 := Rel.ord hc ⟨le_trans (by norm_num) h1, h2.trans (by norm_num)⟩
  have l0 : 0 < Real.log 2 := Real.log_pos (by norm_num)
  obtain ⟨g1, g2⟩ := Rel.log_log_two
  have neps : ¬ c.abs < GeneralisedExtremeValue.eps := fun hlt => by
    obtain ⟨-, -, R, hR, hRe⟩ := Rel.lit (k := 30) (t := 1 / 10 ^ 7) (by rw [abs_of_pos (by norm_num)]; norm_num)
      (by rw [abs_of_pos (by norm_num)]; norm_num) (by norm_num)
    have := (hc.abs.lt_iff hR).1 hlt
    rw [abs_of_pos z0] at this
    rw [abs_of_pos (show (0:ℝ) < 1 / 10 ^ 7 by norm_num)] at hRe
    have := (abs_le.1 hRe).2
    norm_num at this
    linarith
  refine ⟨⟨_, gev_median hs.pos z0, ?_⟩, ?_⟩
  · unfold GeneralisedExtremeValue.median
    rw [if_neg neps]
    have w := Rel.ln_two.powf 8 16 rz.neg l0 (by rw [abs_mul, abs_neg, abs_of_pos z0, abs_of_neg (by linarith)]; push_cast; nlinarith)
      (by rw [abs_neg, abs_of_pos z0]; exact_mod_cast h2) (by norm_num) (by norm_num) (by norm_num) (by norm_num)
    have lo : z * (1 / 4) ≤ Real.log 2 ^ (-z) - 1 := by
      have := Real.add_one_le_exp (Real.log (Real.log 2) * -z)
      rw [Real.rpow_def_of_pos l0]
      nlinarith
    have hi : Real.log 2 ^ (-z) ≤ 65536 := by
      rw [Real.rpow_def_of_pos l0]
      have := (exp_size (L := 8) (x := Real.log (Real.log 2) * -z) (by rw [abs_of_nonneg (by nlinarith)]; push_cast; nlinarith)).2
      refine this.trans (by norm_num)
    have d1 := w.sub_amp (k := 24) 129 (Rel.one.mono (by norm_num) (by norm_num))
      (by rw [abs_of_pos (by linarith)]; refine le_trans ?_ lo; norm_num; linarith)
      (by rw [abs_of_pos (by linarith)]; norm_num; linarith)
      (by rw [abs_of_pos (by linarith), abs_one, abs_of_pos (by linarith)]; push_cast; linarith) (by norm_num) (by norm_num)
    have m1 := ((Rel.ord hb hs).mul d1 (by norm_num) (by norm_num)).div rz (by norm_num) (by norm_num)
    rw [add_sub_cancel_left]
    exact Rel.loc_add' ha hμ m1 (by norm_num) (by norm_num) (by norm_num)
  · refine ⟨_, _, rfl, gev_mode hs.pos z0, ?_⟩
    rw [if_neg neps]
    have o := (Rel.one.mono (k' := 60) (by norm_num) le_rfl).add rz one_pos z0 (by norm_num) (by norm_num)
    have lg : 0 ≤ Real.log (1 + z) := Real.log_nonneg (by linarith)
    have lg2 : Real.log (1 + z) ≤ 3 := by
      rw [Real.log_le_iff_le_exp (by positivity)]
      have e3 : Real.exp 3 = Real.exp 1 ^ 3 := by rw [← Real.exp_nat_mul]; norm_num
      have := Real.exp_one_gt_d9
      have : (2.7:ℝ) ^ 3 ≤ Real.exp 1 ^ 3 := by gcongr; linarith
      rw [e3]
      norm_num at this
      linarith
    have w := o.powf 48 16 rz.neg (by positivity) (by rw [abs_mul, abs_neg, abs_of_pos z0, abs_of_nonneg lg]; push_cast; nlinarith)
      (by rw [abs_neg, abs_of_pos z0]; exact_mod_cast h2) (by norm_num) (by norm_num) (by norm_num) (by norm_num)
    have lg3 : 1 / 17 ≤ Real.log (1 + z) := by
      refine le_trans ?_ (Real.log_le_log (by norm_num) (by linarith : (1:ℝ) + 1 / 16 ≤ 1 + z))
      have := Real.one_sub_inv_le_log_of_pos (show (0:ℝ) < 1 + 1 / 16 by norm_num)
      norm_num at this ⊢
      linarith
    have up : (1 + z) ^ (-z) ≤ 1 - 1 / 512 := by
      have p : 1 / 272 ≤ Real.log (1 + z) * z := by nlinarith
      have : (1 + z) ^ (-z) = (Real.exp (Real.log (1 + z) * z))⁻¹ := by
        rw [Real.rpow_def_of_pos (by positivity), ← Real.exp_neg]; congr 1; ring
      rw [this]
      have e1 := Real.add_one_le_exp (Real.log (1 + z) * z)
      refine (inv_anti₀ (by norm_num) (show (1 + 1 / 272 : ℝ) ≤ _ by linarith)).trans (by norm_num)
    have dn : 0 < (1 + z) ^ (-z) := by positivity
    have d1 := w.sub_amp (k := 128) 1024 (Rel.one.mono (by norm_num) (by norm_num))
      (by rw [abs_of_neg (by linarith)]; refine le_trans (b := 1 / 512) (by norm_num) (by linarith))
      (by rw [abs_of_neg (by linarith)]; refine le_trans (b := 1) (by linarith) (by norm_num))
      (by rw [abs_of_pos dn, abs_one, abs_of_neg (by linarith)]; push_cast; linarith) (by norm_num) (by norm_num)
    have m1 := ((Rel.ord hb hs).mul d1 (by norm_num) (by norm_num)).div rz (by norm_num) (by norm_num)
    rw [add_sub_cancel_left]
    exact Rel.loc_add' ha hμ m1 (by norm_num) (by norm_num) (by norm_num)

end
end Rstat
