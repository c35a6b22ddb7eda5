import Verif.Spec.Prob
import Mathlib.MeasureTheory.Integral.IntegralEqImproper
import Mathlib.MeasureTheory.Integral.DivergenceTheorem
import Mathlib.MeasureTheory.Integral.IntervalIntegral.DerivIntegrable

/-! Generic facts on densities and distribution functions. -/
namespace Rstat.Spec
open MeasureTheory Filter Topology Set

theorem IsCDF.nonneg {F : ℝ → ℝ} (h : IsCDF F) (x : ℝ) : 0 ≤ F x := h.mono.le_of_tendsto h.bot x
theorem IsCDF.le_one {F : ℝ → ℝ} (h : IsCDF F) (x : ℝ) : F x ≤ 1 := h.mono.ge_of_tendsto h.top x

theorem IsCDF.of_continuous {F : ℝ → ℝ} (hm : Monotone F) (hc : Continuous F) (hb : Tendsto F atBot (𝓝 0))
    (ht : Tendsto F atTop (𝓝 1)) : IsCDF F := ⟨hm, fun _ => hc.continuousWithinAt, hb, ht⟩

/-- a continuous distribution function that is differentiable off a countable set, with nonnegative derivative `f`
there, has density `f` -/
theorem density_of_deriv {f F : ℝ → ℝ} (hF : IsCDF F) (hc : Continuous F) {s : Set ℝ} (hs : s.Countable)
    (hd : ∀ x, x ∉ s → HasDerivAt F (f x) x) (hf : ∀ x, 0 ≤ f x) : IsDensityOf f F := by
  have hae : deriv F =ᵐ[volume] f := by
    filter_upwards [compl_mem_ae_iff.2 (hs.measure_zero volume)] with x hx
    exact (hd x hx).deriv
  have hint : ∀ a b, IntervalIntegrable f volume a b := fun a b =>
    ((hF.mono.monotoneOn _).intervalIntegrable_deriv (a := a) (b := b)).congr_ae (ae_restrict_of_ae hae)
  have hval : ∀ a b, ∫ x in a..b, f x = F b - F a := fun a b =>
    integral_eq_of_hasDerivAt_off_countable F f hs hc.continuousOn (fun x hx => hd x hx.2) (hint a b)
  have hnorm : ∀ a b, ∫ x in a..b, ‖f x‖ = F b - F a := fun a b => by
    rw [← hval]; congr 1; ext x; rw [Real.norm_of_nonneg (hf x)]
  have hIoc : ∀ a b, IntegrableOn f (Ioc a b) := fun a b => by
    rcases le_total a b with h | h
    · exact (intervalIntegrable_iff_integrableOn_Ioc_of_le h).1 (hint a b)
    · rw [Ioc_eq_empty (not_lt.2 h)]; exact integrableOn_empty
  have hi : Integrable f := by
    refine integrable_of_intervalIntegral_norm_tendsto (μ := volume) (l := atTop) (a := fun i : ℝ => -i)
      (b := fun i : ℝ => i) 1 (fun i => hIoc _ _) tendsto_neg_atTop_atBot tendsto_id ?_
    simp only [hnorm]
    have h1 := hF.top.comp tendsto_id
    have h2 := hF.bot.comp tendsto_neg_atTop_atBot
    simpa using h1.sub h2
  refine ⟨hf, hi, ?_, ?_⟩
  · have h0 := intervalIntegral_tendsto_integral hi (tendsto_neg_atTop_atBot (G := ℝ)) tendsto_id
    simp only [hval] at h0
    have h1 := hF.top.comp tendsto_id
    have h2 := hF.bot.comp (tendsto_neg_atTop_atBot (G := ℝ))
    have h3 := h1.sub h2
    rw [sub_zero] at h3
    exact tendsto_nhds_unique h0 h3
  · intro x
    have h0 := intervalIntegral_tendsto_integral_Iic x hi.integrableOn (tendsto_id (α := ℝ) (x := atBot))
    simp only [hval] at h0
    have h2 : Tendsto (fun i : ℝ => F x - F (id i)) atBot (𝓝 (F x)) := by
      simpa using (tendsto_const_nhds (x := F x)).sub hF.bot
    exact (tendsto_nhds_unique h0 h2).symm

theorem IsDensityOf.law_eq {f F : ℝ → ℝ} (h : IsDensityOf f F) (s : Set ℝ) (hs : MeasurableSet s) :
    Law f s = ENNReal.ofReal (∫ x in s, f x) := by
  unfold Law
  rw [withDensity_apply _ hs, ofReal_integral_eq_lintegral_ofReal h.integrable.integrableOn
    (Eventually.of_forall h.nonneg)]

/-- the measure with that density is a probability measure with distribution function `F` -/
theorem IsDensityOf.isProbability {f F : ℝ → ℝ} (h : IsDensityOf f F) : IsProbabilityMeasure (Law f) :=
  ⟨by rw [h.law_eq _ MeasurableSet.univ, setIntegral_univ, h.total, ENNReal.ofReal_one]⟩

theorem IsDensityOf.cdf_law {f F : ℝ → ℝ} (h : IsDensityOf f F) (x : ℝ) : ProbabilityTheory.cdf (Law f) x = F x := by
  have := h.isProbability
  rw [ProbabilityTheory.cdf_eq_real, Measure.real, h.law_eq _ measurableSet_Iic, ← h.cdf,
    ENNReal.toReal_ofReal]
  rw [h.cdf]; exact integral_nonneg h.nonneg

/-- gluing: a function that is `0` up to `a`, `G` in between and `1` from `b` on -/
noncomputable def clampCDF (a b : ℝ) (G : ℝ → ℝ) (x : ℝ) : ℝ := if x < a then 0 else if b ≤ x then 1 else G x

theorem clamp_isCDF {a b : ℝ} {G : ℝ → ℝ} (hab : a < b) (hm : MonotoneOn G (Icc a b)) (h0 : G a = 0) (h1 : G b = 1)
    (hc : ContinuousOn G (Icc a b)) : IsCDF (clampCDF a b G) ∧ Continuous (clampCDF a b G) := by
  have e : clampCDF a b G = IccExtend hab.le (fun x : Icc a b => G x) := by
    ext x; unfold clampCDF IccExtend
    simp only [Function.comp_apply]
    rcases lt_trichotomy x a with h | h | h
    · rw [if_pos h, projIcc_of_le_left _ h.le]; exact h0.symm
    · subst h; rw [if_neg (lt_irrefl _), if_neg (not_le.2 hab), projIcc_left]
    · rw [if_neg (not_lt.2 h.le)]
      by_cases hb : b ≤ x
      · rw [if_pos hb, projIcc_of_right_le _ hb]; exact h1.symm
      · rw [if_neg hb, projIcc_of_mem hab.le ⟨h.le, (not_le.1 hb).le⟩]
  have hcont : Continuous (clampCDF a b G) := by
    rw [e]; exact Continuous.Icc_extend' (continuousOn_iff_continuous_domRestrict.1 hc)
  refine ⟨IsCDF.of_continuous ?_ hcont ?_ ?_, hcont⟩
  · rw [e]
    refine Monotone.IccExtend (h := hab.le) (f := fun x : Icc a b => G x) fun x y hxy => hm x.2 y.2 hxy
  · refine tendsto_const_nhds.congr' ?_
    filter_upwards [eventually_lt_atBot a] with x hx
    rw [clampCDF, if_pos hx]
  · refine tendsto_const_nhds.congr' ?_
    filter_upwards [eventually_ge_atTop b] with x hx
    rw [clampCDF, if_neg (not_lt.2 (hab.le.trans hx)), if_pos hx]

theorem clamp_deriv_mid {a b x y : ℝ} {G : ℝ → ℝ} (ha : a < x) (hb : x < b) (h : HasDerivAt G y x) :
    HasDerivAt (clampCDF a b G) y x := by
  refine h.congr_of_eventuallyEq ?_
  filter_upwards [Ioo_mem_nhds ha hb] with t ht
  rw [clampCDF, if_neg (not_lt.2 ht.1.le), if_neg (not_le.2 ht.2)]
theorem clamp_deriv_left {a b x : ℝ} {G : ℝ → ℝ} (ha : x < a) : HasDerivAt (clampCDF a b G) 0 x := by
  refine (hasDerivAt_const x (0 : ℝ)).congr_of_eventuallyEq ?_
  filter_upwards [Iio_mem_nhds ha] with t ht
  rw [clampCDF, if_pos (mem_Iio.1 ht)]
theorem clamp_deriv_right {a b x : ℝ} {G : ℝ → ℝ} (hab : a ≤ b) (ha : b < x) : HasDerivAt (clampCDF a b G) 0 x := by
  refine (hasDerivAt_const x (1 : ℝ)).congr_of_eventuallyEq ?_
  filter_upwards [Ioi_mem_nhds ha] with t ht
  rw [clampCDF, if_neg (not_lt.2 (hab.trans (mem_Ioi.1 ht).le)), if_pos (mem_Ioi.1 ht).le]

/-- gluing on a half line: `0` up to `a`, `G` above -/
noncomputable def halfCDF (a : ℝ) (G : ℝ → ℝ) (x : ℝ) : ℝ := if x ≤ a then 0 else G x

theorem half_isCDF {a : ℝ} {G : ℝ → ℝ} (hm : MonotoneOn G (Ioi a)) (h0 : Tendsto G (𝓝[>] a) (𝓝 0))
    (h1 : Tendsto G atTop (𝓝 1)) (hc : ContinuousOn G (Ioi a)) : IsCDF (halfCDF a G) ∧ Continuous (halfCDF a G) := by
  have hpos : ∀ x, a < x → 0 ≤ G x := by
    intro x hx
    refine le_of_tendsto h0 ?_
    filter_upwards [Ioo_mem_nhdsGT hx] with t ht
    exact hm ht.1 hx ht.2.le
  have hcont : Continuous (halfCDF a G) := by
    rw [continuous_iff_continuousAt]
    intro x
    rcases lt_trichotomy x a with h | h | h
    · refine (continuousAt_const (y := (0 : ℝ))).congr ?_
      filter_upwards [Iio_mem_nhds h] with t ht
      rw [halfCDF, if_pos (mem_Iio.1 ht).le]
    · subst h
      rw [continuousAt_iff_continuous_left_right]
      constructor
      · refine (continuousWithinAt_const (b := (0 : ℝ))).congr (fun t ht => by rw [halfCDF, if_pos (mem_Iic.1 ht)]) (by simp [halfCDF])
      · rw [← continuousWithinAt_Ioi_iff_Ici]
        unfold ContinuousWithinAt
        rw [show halfCDF x G x = 0 by simp [halfCDF]]
        refine h0.congr' ?_
        filter_upwards [self_mem_nhdsWithin] with t ht
        rw [halfCDF, if_neg (not_le.2 ht)]
    · refine (hc.continuousAt (Ioi_mem_nhds h)).congr ?_
      filter_upwards [Ioi_mem_nhds h] with t ht
      rw [halfCDF, if_neg (not_le.2 (mem_Ioi.1 ht))]
  refine ⟨IsCDF.of_continuous ?_ hcont ?_ ?_, hcont⟩
  · intro x y hxy
    unfold halfCDF
    split_ifs with hx hy
    · exact le_rfl
    · exact hpos _ (not_le.1 hy)
    · exact absurd (hxy.trans ‹_›) hx
    · exact hm (not_le.1 hx) (not_le.1 ‹_›) hxy
  · refine tendsto_const_nhds.congr' ?_
    filter_upwards [eventually_le_atBot a] with x hx
    rw [halfCDF, if_pos hx]
  · refine h1.congr' ?_
    filter_upwards [eventually_gt_atTop a] with x hx
    rw [halfCDF, if_neg (not_le.2 hx)]

theorem half_deriv {a x y : ℝ} {G : ℝ → ℝ} (ha : a < x) (h : HasDerivAt G y x) : HasDerivAt (halfCDF a G) y x := by
  refine h.congr_of_eventuallyEq ?_
  filter_upwards [Ioi_mem_nhds ha] with t ht
  rw [halfCDF, if_neg (not_le.2 (mem_Ioi.1 ht))]
theorem half_deriv_left {a x : ℝ} {G : ℝ → ℝ} (ha : x < a) : HasDerivAt (halfCDF a G) 0 x := by
  refine (hasDerivAt_const x (0 : ℝ)).congr_of_eventuallyEq ?_
  filter_upwards [Iio_mem_nhds ha] with t ht
  rw [halfCDF, if_pos (mem_Iio.1 ht).le]

/-- packaged: density on a half line -/
theorem half_density {a : ℝ} {G g : ℝ → ℝ} (hd : ∀ x, a < x → HasDerivAt G (g x) x) (hg : ∀ x, a < x → 0 ≤ g x)
    (h0 : Tendsto G (𝓝[>] a) (𝓝 0)) (h1 : Tendsto G atTop (𝓝 1)) :
    IsCDF (halfCDF a G) ∧ IsDensityOf (fun x => if x ≤ a then 0 else g x) (halfCDF a G) := by
  have hm : MonotoneOn G (Ioi a) := by
    refine monotoneOn_of_deriv_nonneg (convex_Ioi a) (fun x hx => (hd x hx).continuousAt.continuousWithinAt)
      (fun x hx => ?_) (fun x hx => ?_)
    · rw [interior_Ioi] at hx; exact (hd x hx).differentiableAt.differentiableWithinAt
    · rw [interior_Ioi] at hx; rw [(hd x hx).deriv]; exact hg x hx
  obtain ⟨h, hc⟩ := half_isCDF hm h0 h1 (fun x hx => (hd x hx).continuousAt.continuousWithinAt)
  refine ⟨h, density_of_deriv h hc (countable_singleton a) (fun x hx => ?_) fun x => ?_⟩
  · rcases lt_or_gt_of_ne (show x ≠ a from hx) with hl | hr
    · rw [if_pos hl.le]; exact half_deriv_left hl
    · rw [if_neg (not_le.2 hr)]; exact half_deriv hr (hd x hr)
  · split_ifs with hx
    · exact le_rfl
    · exact hg x (not_le.1 hx)

/-- packaged: density on a bounded interval -/
theorem clamp_density {a b : ℝ} {G g : ℝ → ℝ} (hab : a < b) (hd : ∀ x ∈ Ioo a b, HasDerivAt G (g x) x)
    (hg : ∀ x ∈ Ioo a b, 0 ≤ g x) (h0 : G a = 0) (h1 : G b = 1) (hc : ContinuousOn G (Icc a b)) :
    IsCDF (clampCDF a b G) ∧ IsDensityOf (fun x => if x ≤ a ∨ b ≤ x then 0 else g x) (clampCDF a b G) := by
  have hm : MonotoneOn G (Icc a b) := by
    refine monotoneOn_of_deriv_nonneg (convex_Icc a b) hc (fun x hx => ?_) (fun x hx => ?_)
    · rw [interior_Icc] at hx; exact (hd x hx).differentiableAt.differentiableWithinAt
    · rw [interior_Icc] at hx; rw [(hd x hx).deriv]; exact hg x hx
  obtain ⟨h, hcc⟩ := clamp_isCDF hab hm h0 h1 hc
  refine ⟨h, density_of_deriv h hcc (s := {a, b}) (by simp) (fun x hx => ?_) fun x => ?_⟩
  · simp only [mem_insert_iff, mem_singleton_iff, not_or] at hx
    rcases lt_or_gt_of_ne hx.1 with hl | hr
    · rw [if_pos (Or.inl hl.le)]; exact clamp_deriv_left hl
    · rcases lt_or_gt_of_ne hx.2 with hl2 | hr2
      · rw [if_neg (by push Not; exact ⟨hr, hl2⟩)]; exact clamp_deriv_mid hr hl2 (hd x ⟨hr, hl2⟩)
      · rw [if_pos (Or.inr hr2.le)]; exact clamp_deriv_right hab.le hr2
  · split_ifs with hx
    · exact le_rfl
    · push Not at hx; exact hg x hx

/-- changing a density at countably many points keeps it a density -/
theorem IsDensityOf.congr {f g F : ℝ → ℝ} (h : IsDensityOf f F) {s : Set ℝ} (hs : s.Countable)
    (hfg : ∀ x, x ∉ s → g x = f x) (hg : ∀ x, 0 ≤ g x) : IsDensityOf g F := by
  have hae : f =ᵐ[volume] g := by
    filter_upwards [compl_mem_ae_iff.2 (hs.measure_zero volume)] with x hx
    exact (hfg x hx).symm
  exact ⟨hg, h.integrable.congr hae, by rw [← h.total]; exact integral_congr_ae hae.symm,
    fun x => by rw [h.cdf]; exact integral_congr_ae (ae_restrict_of_ae hae)⟩

/-- whole-line version -/
theorem line_density {F f : ℝ → ℝ} (hd : ∀ x, HasDerivAt F (f x) x) (hf : ∀ x, 0 ≤ f x)
    (h0 : Tendsto F atBot (𝓝 0)) (h1 : Tendsto F atTop (𝓝 1)) : IsCDF F ∧ IsDensityOf f F := by
  have hc : Continuous F := continuous_iff_continuousAt.2 fun x => (hd x).continuousAt
  have hm : Monotone F := monotone_of_deriv_nonneg (fun x => (hd x).differentiableAt) fun x => by
    rw [(hd x).deriv]; exact hf x
  have h := IsCDF.of_continuous hm hc h0 h1
  exact ⟨h, density_of_deriv h hc countable_empty (fun x _ => hd x) hf⟩

end Rstat.Spec
