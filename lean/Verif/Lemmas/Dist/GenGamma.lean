import Verif.Lemmas.Dist.Gamma2
import Verif.Lemmas.Dist.PowerExp

/-! Powers of a Gamma variable: `X = T^(1/p)`, `T ~ Gamma(a, 1)`; `p = 2` is the (scaled) Chi law and `p = -1` the inverse
Gamma law. -/
namespace Rstat.Spec
open MeasureTheory Filter Topology Set Real

/-- density of `T^(1/p)` -/
noncomputable def ggPDF (a p x : ℝ) : ℝ := if x ≤ 0 then 0 else |p| / Real.Gamma a * x ^ (p * a - 1) * rexp (-x ^ p)

theorem gg_transfer {a p : ℝ} (hp : p ≠ 0) (h : ℝ → ℝ) :
    (Integrable (fun x => h x * ggPDF a p x) ↔
      IntegrableOn (fun t => h (t ^ (1 / p)) * (t ^ (a - 1) * rexp (-t) / Real.Gamma a)) (Ioi 0)) ∧
    ∫ x, h x * ggPDF a p x = ∫ t in Ioi 0, h (t ^ (1 / p)) * (t ^ (a - 1) * rexp (-t) / Real.Gamma a) := by
  have hq : (1 / p) * p = 1 := by field_simp
  refine transfer (T := Ioi 0) (φ := fun t => t ^ (1 / p)) (φ' := fun t => 1 / p * t ^ (1 / p - 1)) measurableSet_Ioi
    (fun t ht => hasDerivAt_rpow_const (Or.inl (ne_of_gt ht))) (fun x hx y hy hxy => ?_) (fun t ht => ?_)
    (Eventually.of_forall fun x hx => ?_) h
  · have hx : 0 < x := hx
    have hy : 0 < y := hy
    have := congrArg (fun z => z ^ p) hxy
    simp only at this
    rwa [← rpow_mul hx.le, ← rpow_mul hy.le, hq, rpow_one, rpow_one] at this
  · have ht : 0 < t := ht
    have hpos : 0 < t ^ (1 / p) := rpow_pos_of_pos ht _
    rw [ggPDF, if_neg (not_le.2 hpos), ← rpow_mul ht.le, ← rpow_mul ht.le, hq, rpow_one, abs_mul,
      abs_of_pos (rpow_pos_of_pos ht _)]
    have e1 : |1 / p| * |p| = 1 := by rw [← abs_mul, hq, abs_one]
    have e2 : t ^ (1 / p - 1) * t ^ (1 / p * (p * a - 1)) = t ^ (a - 1) := by
      rw [← rpow_add ht]; congr 1; field_simp; ring
    calc |1 / p| * t ^ (1 / p - 1) * (|p| / Real.Gamma a * t ^ (1 / p * (p * a - 1)) * rexp (-t))
        = (|1 / p| * |p|) * (t ^ (1 / p - 1) * t ^ (1 / p * (p * a - 1))) * rexp (-t) / Real.Gamma a := by ring
      _ = _ := by rw [e1, e2]; ring
  · rw [ggPDF]
    by_cases hx0 : x ≤ 0
    · rw [if_pos hx0]
    · exact absurd ⟨x ^ p, rpow_pos_of_pos (not_le.1 hx0) p, by
        simp only; rw [← rpow_mul (not_le.1 hx0).le, mul_comm, hq, rpow_one]⟩ hx

theorem gg_raw {a p : ℝ} (hp : p ≠ 0) {k : ℕ} (hk : 0 < a + k / p) :
    HasCentral (ggPDF a p) 0 k (Real.Gamma (a + k / p) / Real.Gamma a) := by
  obtain ⟨t1, t2⟩ := gg_transfer (a := a) hp (fun x => x ^ k)
  have i := gamma_integrableOn hk
  have v : ∫ t in Ioi (0 : ℝ), t ^ (a + k / p - 1) * rexp (-t) = Real.Gamma (a + k / p) := by
    rw [Real.Gamma_eq_integral hk]; congr 1; ext t; ring
  have e : ∀ t ∈ Ioi (0:ℝ), 1 / Real.Gamma a * (t ^ (a + (k:ℝ) / p - 1) * rexp (-t)) =
      (t ^ (1 / p)) ^ k * (t ^ (a - 1) * rexp (-t) / Real.Gamma a) := fun t ht => by
    have ht : 0 < t := ht
    have h2 : t ^ (a + (k:ℝ) / p - 1) = (t ^ (1 / p)) ^ k * t ^ (a - 1) := by
      rw [← rpow_natCast, ← rpow_mul ht.le, ← rpow_add ht]; congr 1; ring
    rw [h2]; ring
  unfold HasCentral
  simp only [sub_zero]
  refine ⟨t1.2 (IntegrableOn.congr_fun (i.const_mul _) e measurableSet_Ioi), ?_⟩
  rw [t2, ← setIntegral_congr_fun measurableSet_Ioi e, integral_const_mul, v]; ring

theorem gg_raw_infinite {a p : ℝ} (ha : 0 < a) (hp : p ≠ 0) {k : ℕ} (hk : a + k / p ≤ 0) :
    ¬ Integrable fun x => x ^ k * ggPDF a p x := by
  have hG := Real.Gamma_pos_of_pos ha
  obtain ⟨t1, _⟩ := gg_transfer (a := a) hp (fun x => x ^ k)
  have e : ∀ t ∈ Ioi (0:ℝ), Real.Gamma a * ((t ^ (1 / p)) ^ k * (t ^ (a - 1) * rexp (-t) / Real.Gamma a)) =
      t ^ (a + (k:ℝ) / p - 1) * rexp (-t) := fun t ht => by
    have ht : 0 < t := ht
    have h2 : t ^ (a + (k:ℝ) / p - 1) = (t ^ (1 / p)) ^ k * t ^ (a - 1) := by
      rw [← rpow_natCast, ← rpow_mul ht.le, ← rpow_add ht]; congr 1; ring
    rw [h2]; field_simp
  rw [t1]
  intro h
  exact exp_rpow_not_integrable (s := a + k / p - 1) (by linarith) (IntegrableOn.congr_fun (h.const_mul _) e measurableSet_Ioi)

theorem gg_entropy {a p : ℝ} (ha : 0 < a) (hp : p ≠ 0) :
    HasEntropy (ggPDF a p) (a + Real.log (Real.Gamma a) - Real.log |p| - (a - 1 / p) * digamma a) := by
  have hG := Real.Gamma_pos_of_pos ha
  have c : (fun x => ggPDF a p x * Real.log (ggPDF a p x)) = fun x => Real.log (ggPDF a p x) * ggPDF a p x := by
    ext x; ring
  obtain ⟨t1, t2⟩ := gg_transfer (a := a) hp (fun x => Real.log (ggPDF a p x))
  obtain ⟨a1, a2⟩ := log_gamma_mean ha
  have b1 := gamma_integrableOn (a := a + 1) (by linarith)
  have c1 := gamma_integrableOn ha
  have b2 : ∫ t in Ioi (0 : ℝ), t ^ (a + 1 - 1) * rexp (-t) = a * Real.Gamma a := by
    rw [← Real.Gamma_add_one ha.ne', Real.Gamma_eq_integral (by linarith)]; congr 1; ext t; ring
  have c2 : ∫ t in Ioi (0 : ℝ), t ^ (a - 1) * rexp (-t) = Real.Gamma a := by
    rw [Real.Gamma_eq_integral ha]; congr 1; ext t; ring
  have hq : (1 / p) * p = 1 := by field_simp
  have e : ∀ t ∈ Ioi (0:ℝ), (Real.log |p| - Real.log (Real.Gamma a)) / Real.Gamma a * (t ^ (a - 1) * rexp (-t)) +
      (a - 1 / p) / Real.Gamma a * (Real.log t * (t ^ (a - 1) * rexp (-t))) -
      1 / Real.Gamma a * (t ^ (a + 1 - 1) * rexp (-t)) =
      Real.log (ggPDF a p (t ^ (1 / p))) * (t ^ (a - 1) * rexp (-t) / Real.Gamma a) := fun t ht => by
    have ht : 0 < t := ht
    have hpos : 0 < t ^ (1 / p) := rpow_pos_of_pos ht _
    have hap : 0 < |p| := abs_pos.2 hp
    have h1 : t ^ (a + 1 - 1) = t ^ (a - 1) * t := by rw [← rpow_add_one ht.ne']; congr 1; ring
    have h2 : 1 / p * (p * a - 1) = a - 1 / p := by field_simp
    rw [ggPDF, if_neg (not_le.2 hpos), ← rpow_mul ht.le, ← rpow_mul ht.le, hq, rpow_one, h2,
      Real.log_mul (by positivity) (Real.exp_ne_zero _), Real.log_mul (by positivity) (by positivity), Real.log_exp,
      Real.log_rpow ht, Real.log_div hap.ne' hG.ne', h1]
    ring
  have i1 : IntegrableOn (fun t => (Real.log |p| - Real.log (Real.Gamma a)) / Real.Gamma a * (t ^ (a - 1) * rexp (-t))) (Ioi 0) :=
    c1.const_mul _
  have i2 : IntegrableOn (fun t => (a - 1 / p) / Real.Gamma a * (Real.log t * (t ^ (a - 1) * rexp (-t)))) (Ioi 0) :=
    a1.const_mul _
  have i3 : IntegrableOn (fun t => (Real.log |p| - Real.log (Real.Gamma a)) / Real.Gamma a * (t ^ (a - 1) * rexp (-t)) +
    (a - 1 / p) / Real.Gamma a * (Real.log t * (t ^ (a - 1) * rexp (-t)))) (Ioi 0) := i1.add i2
  have i5 : IntegrableOn (fun t => 1 / Real.Gamma a * (t ^ (a + 1 - 1) * rexp (-t))) (Ioi 0) := b1.const_mul _
  unfold HasEntropy
  rw [c]
  refine ⟨t1.2 (IntegrableOn.congr_fun (i3.sub i5) e measurableSet_Ioi), ?_⟩
  rw [t2, ← setIntegral_congr_fun measurableSet_Ioi e, integral_sub i3 i5, integral_add i1 i2, integral_const_mul,
    integral_const_mul, integral_const_mul, a2, b2, c2]
  field_simp
  ring

theorem gg_density_pos {a p : ℝ} (ha : 0 < a) (hp : 0 < p) :
    IsCDF (halfCDF 0 fun x => gammaP a (x ^ p)) ∧ IsDensityOf (ggPDF a p) (halfCDF 0 fun x => gammaP a (x ^ p)) := by
  have hG := Real.Gamma_pos_of_pos ha
  have h := half_density (a := 0) (G := fun x => gammaP a (x ^ p))
    (g := fun x => |p| / Real.Gamma a * x ^ (p * a - 1) * rexp (-x ^ p)) (fun x hx => ?_) (fun x hx => by positivity) ?_ ?_
  · exact h
  · have hxp : 0 < x ^ p := rpow_pos_of_pos hx _
    have := (gammaP_hasDerivAt ha hxp).comp x (hasDerivAt_rpow_const (p := p) (Or.inl hx.ne'))
    refine HasDerivAt.congr_deriv (f := fun x => gammaP a (x ^ p)) this ?_
    show (x ^ p) ^ (a - 1) * rexp (-x ^ p) / Real.Gamma a * (p * x ^ (p - 1)) = _
    have e : x ^ (p * a - 1) = (x ^ p) ^ (a - 1) * x ^ (p - 1) := by
      rw [← rpow_mul hx.le, ← rpow_add hx]; congr 1; ring
    rw [abs_of_pos hp, e]; ring
  · refine (gammaP_tendsto_zero ha).comp (tendsto_nhdsWithin_iff.2 ⟨?_, ?_⟩)
    · have h1 : Tendsto (fun x : ℝ => x ^ p) (𝓝[>] 0) (𝓝 (0 ^ p)) :=
        (Real.continuousAt_rpow_const 0 p (Or.inr hp.le)).tendsto.mono_left nhdsWithin_le_nhds
      rwa [Real.zero_rpow hp.ne'] at h1
    · filter_upwards [self_mem_nhdsWithin] with x hx
      exact rpow_pos_of_pos hx _
  · exact (gammaP_tendsto_one ha).comp (tendsto_rpow_atTop hp)

theorem gg_density_neg {a p : ℝ} (ha : 0 < a) (hp : p < 0) :
    IsCDF (halfCDF 0 fun x => 1 - gammaP a (x ^ p)) ∧
    IsDensityOf (ggPDF a p) (halfCDF 0 fun x => 1 - gammaP a (x ^ p)) := by
  have hG := Real.Gamma_pos_of_pos ha
  have hp' : 0 < -p := by linarith
  have h := half_density (a := 0) (G := fun x => 1 - gammaP a (x ^ p))
    (g := fun x => |p| / Real.Gamma a * x ^ (p * a - 1) * rexp (-x ^ p)) (fun x hx => ?_) (fun x hx => by positivity) ?_ ?_
  · exact h
  · have hxp : 0 < x ^ p := rpow_pos_of_pos hx _
    have := ((gammaP_hasDerivAt ha hxp).comp x (hasDerivAt_rpow_const (p := p) (Or.inl hx.ne'))).const_sub 1
    refine HasDerivAt.congr_deriv (f := fun x => 1 - gammaP a (x ^ p)) this ?_
    show -((x ^ p) ^ (a - 1) * rexp (-x ^ p) / Real.Gamma a * (p * x ^ (p - 1))) = _
    have e : x ^ (p * a - 1) = (x ^ p) ^ (a - 1) * x ^ (p - 1) := by
      rw [← rpow_mul hx.le, ← rpow_add hx]; congr 1; ring
    rw [abs_of_neg hp, e]; ring
  · have h1 : Tendsto (fun x : ℝ => x ^ p) (𝓝[>] 0) atTop := tendsto_rpow_neg_nhdsGT_zero hp
    have := ((gammaP_tendsto_one ha).comp h1).const_sub 1
    simpa only [sub_self, Function.comp_def] using this
  · have h1 : Tendsto (fun x : ℝ => x ^ p) atTop (𝓝[>] 0) := by
      refine tendsto_nhdsWithin_iff.2 ⟨?_, ?_⟩
      · have := tendsto_rpow_neg_atTop hp'
        simpa using this
      · filter_upwards [eventually_gt_atTop 0] with x hx
        exact rpow_pos_of_pos hx _
    have := ((gammaP_tendsto_zero ha).comp h1).const_sub 1
    simpa only [sub_zero, Function.comp_def] using this

/-- mode, when the density is bounded at 0 -/
theorem gg_mode {a p : ℝ} (ha : 0 < a) (hp : p ≠ 0) (h : 0 < a - 1 / p) : IsMode (ggPDF a p) ((a - 1 / p) ^ (1 / p)) := by
  have hG := Real.Gamma_pos_of_pos ha
  have hm : 0 < (a - 1 / p) ^ (1 / p) := rpow_pos_of_pos h _
  have hq : (1 / p) * p = 1 := by field_simp
  have key : ∀ x, 0 < x → ggPDF a p x = |p| / Real.Gamma a * ((x ^ p) ^ (a - 1 / p) * rexp (-x ^ p)) := fun x hx => by
    rw [ggPDF, if_neg (not_le.2 hx), ← rpow_mul hx.le, mul_assoc]; congr 3; field_simp
  intro x
  rcases le_or_gt x 0 with hx | hx
  · rw [key _ hm, ggPDF, if_pos hx]
    have : 0 < ((a - 1 / p) ^ (1 / p)) ^ p := rpow_pos_of_pos hm _
    positivity
  · rw [key x hx, key _ hm]
    have hw : ((a - 1 / p) ^ (1 / p)) ^ p = a - 1 / p := by rw [← rpow_mul h.le, hq, rpow_one]
    rw [hw]
    exact mul_le_mul_of_nonneg_left (rpow_exp_le h.le (rpow_pos_of_pos hx _).le) (by positivity)

end Rstat.Spec
