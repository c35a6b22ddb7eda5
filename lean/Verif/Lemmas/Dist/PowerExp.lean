import Verif.Lemmas.Transfer
import Verif.Spec.Families
import Mathlib.Analysis.SpecialFunctions.ImproperIntegrals

/-! Powers of an exponential variable: `X = T^(1/p)`, `T` unit exponential; `p = k > 0` is Weibull and `p = -α < 0` is
Fréchet. -/
namespace Rstat.Spec
open MeasureTheory Filter Topology Set Real

/-- if a central moment of a density is finite, so is the raw one -/
theorem raw_integrable_of_central {f : ℝ → ℝ} (hf : ∀ x, 0 ≤ f x) (hi : Integrable f) {m : ℝ} {k : ℕ}
    (h : Integrable fun x => (x - m) ^ k * f x) : Integrable fun x => x ^ k * f x := by
  have hb : Integrable fun x => 2 ^ (k - 1) * (|(x - m) ^ k * f x| + |m| ^ k * f x) :=
    (h.abs.add (hi.const_mul _)).const_mul _
  refine Integrable.mono' hb ?_ (Eventually.of_forall fun x => ?_)
  · exact ((continuous_id.pow k).aestronglyMeasurable).mul hi.aestronglyMeasurable
  · rw [norm_mul, norm_pow, Real.norm_eq_abs, Real.norm_of_nonneg (hf x), abs_mul, abs_pow, abs_of_nonneg (hf x)]
    have h1 : |x| ≤ |x - m| + |m| := by simpa using abs_add_le (x - m) m
    have h2 : |x| ^ k ≤ 2 ^ (k - 1) * (|x - m| ^ k + |m| ^ k) :=
      (pow_le_pow_left₀ (abs_nonneg _) h1 k).trans (add_pow_le (abs_nonneg _) (abs_nonneg _) k)
    calc |x| ^ k * f x ≤ 2 ^ (k - 1) * (|x - m| ^ k + |m| ^ k) * f x := by gcongr; exact hf x
      _ = _ := by ring

theorem exp_rpow_not_integrable {s : ℝ} (hs : s ≤ -1) : ¬ IntegrableOn (fun t => t ^ s * rexp (-t)) (Ioi 0) := by
  intro h
  have h1 : IntegrableOn (fun t => t ^ s * rexp (-t)) (Ioo 0 1) := h.mono_set Ioo_subset_Ioi_self
  have h2 : IntegrableOn (fun t : ℝ => t ^ s) (Ioo 0 1) := by
    refine Integrable.mono' (h1.const_mul (rexp 1)) ?_ ?_
    · refine (ContinuousOn.aestronglyMeasurable (fun t ht => ?_) measurableSet_Ioo)
      exact (Real.continuousAt_rpow_const t s (Or.inl ht.1.ne')).continuousWithinAt
    · filter_upwards [ae_restrict_mem measurableSet_Ioo] with t ht
      have hp : 0 < t ^ s := rpow_pos_of_pos ht.1 s
      rw [Real.norm_of_nonneg hp.le]
      have : 1 ≤ rexp 1 * rexp (-t) := by
        rw [← Real.exp_add]; exact Real.one_le_exp (by linarith [ht.2])
      nlinarith
  rw [intervalIntegral.integrableOn_Ioo_rpow_iff one_pos] at h2
  linarith

/-- density of `T^(1/p)` -/
noncomputable def powPDF (p x : ℝ) : ℝ := if x ≤ 0 then 0 else |p| * x ^ (p - 1) * rexp (-x ^ p)

theorem powPDF_nonneg (p x : ℝ) : 0 ≤ powPDF p x := by
  unfold powPDF; split_ifs with h
  · exact le_rfl
  · have : 0 ≤ x := (not_le.1 h).le
    positivity

theorem pow_transfer {p : ℝ} (hp : p ≠ 0) (h : ℝ → ℝ) :
    (Integrable (fun x => h x * powPDF p x) ↔ IntegrableOn (fun t => h (t ^ (1 / p)) * rexp (-t)) (Ioi 0)) ∧
    ∫ x, h x * powPDF p x = ∫ t in Ioi 0, h (t ^ (1 / p)) * rexp (-t) := by
  have hq : (1 / p) * p = 1 := by field_simp
  refine transfer (T := Ioi 0) (φ := fun t => t ^ (1 / p)) (φ' := fun t => 1 / p * t ^ (1 / p - 1)) measurableSet_Ioi
    (fun t ht => hasDerivAt_rpow_const (Or.inl (ne_of_gt ht))) (fun x hx y hy hxy => ?_) (fun t ht => ?_)
    (Eventually.of_forall fun x hx => ?_) h
  · have hx : 0 < x := hx
    have hy : 0 < y := hy
    have := congrArg (fun z => z ^ p) hxy
    simp only at this
    rwa [← rpow_mul hx.le, ← rpow_mul hy.le, hq, rpow_one, rpow_one] at this
  · have ht : 0 < t := ht
    have hpos : 0 < t ^ (1 / p) := rpow_pos_of_pos ht _
    rw [powPDF, if_neg (not_le.2 hpos), ← rpow_mul ht.le, ← rpow_mul ht.le, hq, rpow_one, abs_mul,
      abs_of_pos (rpow_pos_of_pos ht _)]
    have e1 : |1 / p| * |p| = 1 := by rw [← abs_mul, hq, abs_one]
    have e2 : t ^ (1 / p - 1) * t ^ (1 / p * (p - 1)) = 1 := by
      rw [← rpow_add ht, mul_sub, hq, mul_one, show 1 / p - 1 + (1 - 1 / p) = 0 by ring, rpow_zero]
    calc |1 / p| * t ^ (1 / p - 1) * (|p| * t ^ (1 / p * (p - 1)) * rexp (-t))
        = (|1 / p| * |p|) * (t ^ (1 / p - 1) * t ^ (1 / p * (p - 1))) * rexp (-t) := by ring
      _ = _ := by rw [e1, e2]; ring
  · rw [powPDF]
    by_cases hx0 : x ≤ 0
    · rw [if_pos hx0]
    · exact absurd ⟨x ^ p, rpow_pos_of_pos (not_le.1 hx0) p, by
        simp only; rw [← rpow_mul (not_le.1 hx0).le, mul_comm, hq, rpow_one]⟩ hx

theorem pow_raw {p : ℝ} (hp : p ≠ 0) {k : ℕ} (hk : 0 < 1 + k / p) :
    HasCentral (powPDF p) 0 k (Real.Gamma (1 + k / p)) := by
  obtain ⟨t1, t2⟩ := pow_transfer hp (fun x => x ^ k)
  obtain ⟨a1, a2⟩ := exp_rpow (s := k / p) (by linarith)
  have e : ∀ t ∈ Ioi (0:ℝ), t ^ ((k:ℝ) / p) * rexp (-t) = (t ^ (1 / p)) ^ k * rexp (-t) := fun t ht => by
    have ht : 0 < t := ht
    rw [← rpow_natCast, ← rpow_mul ht.le]; congr 2; ring
  unfold HasCentral
  simp only [sub_zero]
  refine ⟨t1.2 (IntegrableOn.congr_fun a1 e measurableSet_Ioi), ?_⟩
  rw [t2, ← setIntegral_congr_fun measurableSet_Ioi e, a2]

theorem pow_raw_infinite {p : ℝ} (hp : p ≠ 0) {k : ℕ} (hk : 1 + k / p ≤ 0) :
    ¬ Integrable fun x => x ^ k * powPDF p x := by
  obtain ⟨t1, _⟩ := pow_transfer hp (fun x => x ^ k)
  have e : ∀ t ∈ Ioi (0:ℝ), (t ^ (1 / p)) ^ k * rexp (-t) = t ^ ((k:ℝ) / p) * rexp (-t) := fun t ht => by
    have ht : 0 < t := ht
    rw [← rpow_natCast, ← rpow_mul ht.le]; congr 2; ring
  rw [t1]
  intro h
  exact exp_rpow_not_integrable (s := k / p) (by linarith) (IntegrableOn.congr_fun h e measurableSet_Ioi)

/-- `E[ln X]`, `E[X^p]` and the entropy -/
theorem pow_entropy {p : ℝ} (hp : p ≠ 0) :
    HasEntropy (powPDF p) (1 - Real.log |p| - (1 - 1 / p) * digamma 1) := by
  have c : (fun x => powPDF p x * Real.log (powPDF p x)) = fun x => Real.log (powPDF p x) * powPDF p x := by
    ext x; ring
  obtain ⟨t1, t2⟩ := pow_transfer hp (fun x => Real.log (powPDF p x))
  obtain ⟨a1, a2⟩ := exp_log_mean
  obtain ⟨b1, b2⟩ := exp_rpow (s := 1) (by norm_num)
  obtain ⟨c1, c2⟩ := exp_rpow (s := 0) (by norm_num)
  simp only [rpow_zero, one_mul, rpow_one, add_zero, Real.Gamma_one] at b1 b2 c1 c2
  have hq : (1 / p) * p = 1 := by field_simp
  have e : ∀ t ∈ Ioi (0:ℝ), Real.log |p| * rexp (-t) + (1 - 1 / p) * (Real.log t * rexp (-t)) - t * rexp (-t) =
      Real.log (powPDF p (t ^ (1 / p))) * rexp (-t) := fun t ht => by
    have ht : 0 < t := ht
    have hpos : 0 < t ^ (1 / p) := rpow_pos_of_pos ht _
    have hap : 0 < |p| := abs_pos.2 hp
    rw [powPDF, if_neg (not_le.2 hpos), ← rpow_mul ht.le, ← rpow_mul ht.le, hq, rpow_one,
      Real.log_mul (by positivity) (Real.exp_ne_zero _), Real.log_mul hap.ne' (by positivity), Real.log_exp,
      Real.log_rpow ht, mul_sub, hq]
    ring
  have i1 : IntegrableOn (fun t => Real.log |p| * rexp (-t)) (Ioi 0) := c1.const_mul _
  have i2 : IntegrableOn (fun t => (1 - 1 / p) * (Real.log t * rexp (-t))) (Ioi 0) := a1.const_mul _
  have i3 : IntegrableOn (fun t => Real.log |p| * rexp (-t) + (1 - 1 / p) * (Real.log t * rexp (-t))) (Ioi 0) := i1.add i2
  have i4 : IntegrableOn (fun t => Real.log |p| * rexp (-t) + (1 - 1 / p) * (Real.log t * rexp (-t)) - t * rexp (-t)) (Ioi 0) :=
    i3.sub b1
  unfold HasEntropy
  rw [c]
  refine ⟨t1.2 (IntegrableOn.congr_fun i4 e measurableSet_Ioi), ?_⟩
  rw [t2, ← setIntegral_congr_fun measurableSet_Ioi e, integral_sub i3 b1, integral_add i1 i2, integral_const_mul,
    integral_const_mul, a2, b2, c2, show (1:ℝ) + 1 = 2 by norm_num, Real.Gamma_two]
  ring

/-- `E[X^q]` for real exponents -/
theorem pow_deriv_exp {p x : ℝ} (hx : 0 < x) : HasDerivAt (fun x => rexp (-x ^ p)) (-(p * x ^ (p - 1) * rexp (-x ^ p))) x := by
  have h := (hasDerivAt_rpow_const (p := p) (Or.inl hx.ne')).neg.exp
  refine HasDerivAt.congr_deriv (f := fun x => rexp (-x ^ p)) h ?_
  show rexp (-x ^ p) * _ = _
  ring

/-- Weibull side -/
theorem pow_density_pos {p : ℝ} (hp : 0 < p) :
    IsCDF (halfCDF 0 fun x => 1 - rexp (-x ^ p)) ∧ IsDensityOf (powPDF p) (halfCDF 0 fun x => 1 - rexp (-x ^ p)) := by
  have h := half_density (a := 0) (G := fun x => 1 - rexp (-x ^ p)) (g := fun x => |p| * x ^ (p - 1) * rexp (-x ^ p))
    (fun x hx => ?_) (fun x hx => by positivity) ?_ ?_
  · exact h
  · refine HasDerivAt.congr_deriv ((pow_deriv_exp (p := p) hx).const_sub 1) ?_
    rw [abs_of_pos hp]; ring
  · have h1 : Tendsto (fun x : ℝ => x ^ p) (𝓝[>] 0) (𝓝 (0 ^ p)) :=
      (Real.continuousAt_rpow_const 0 p (Or.inr hp.le)).tendsto.mono_left nhdsWithin_le_nhds
    rw [Real.zero_rpow hp.ne'] at h1
    have h2 := ((Real.continuous_exp.tendsto _).comp h1.neg).const_sub 1
    simpa only [neg_zero, Real.exp_zero, sub_self, Function.comp_def] using h2
  · have h2 := (Real.tendsto_exp_neg_atTop_nhds_zero.comp (tendsto_rpow_atTop hp)).const_sub 1
    simpa only [sub_zero, Function.comp_def] using h2

/-- Fréchet side -/
theorem pow_density_neg {a : ℝ} (ha : 0 < a) :
    IsCDF (halfCDF 0 fun x => rexp (-x ^ (-a))) ∧ IsDensityOf (powPDF (-a)) (halfCDF 0 fun x => rexp (-x ^ (-a))) := by
  have h := half_density (a := 0) (G := fun x => rexp (-x ^ (-a))) (g := fun x => |(-a)| * x ^ (-a - 1) * rexp (-x ^ (-a)))
    (fun x hx => ?_) (fun x hx => by positivity) ?_ ?_
  · exact h
  · refine HasDerivAt.congr_deriv (pow_deriv_exp (p := -a) hx) ?_
    rw [abs_neg, abs_of_pos ha]; ring
  · have h1 : Tendsto (fun x : ℝ => x ^ (-a)) (𝓝[>] 0) atTop := tendsto_rpow_neg_nhdsGT_zero (by linarith)
    exact Real.tendsto_exp_neg_atTop_nhds_zero.comp h1
  · have h2 := (Real.continuous_exp.tendsto _).comp (tendsto_rpow_neg_atTop ha).neg
    simpa only [neg_zero, Real.exp_zero, Function.comp_def] using h2

end Rstat.Spec
