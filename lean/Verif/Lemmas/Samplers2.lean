import Verif.Lemmas.Samplers
import Verif.Float.Lemmas
import Verif.Lemmas.Dist.Discrete
import Verif.Lemmas.Dist.Gamma2
import Mathlib.Probability.ProductMeasure

/-! Transforms of the uniform law; a random source that behaves as documented exists. -/
namespace Rstat.Spec
open MeasureTheory ProbabilityTheory Set Filter Topology
set_option linter.unusedSectionVars false

theorem unif_apply {a b : ℝ} (A : Set ℝ) :
    unif a b A = (ENNReal.ofReal (b - a))⁻¹ * volume (Icc a b ∩ A) := by
  unfold unif
  rw [ProbabilityTheory.cond_apply measurableSet_Icc, Real.volume_Icc]

/-- inverse transform sampling -/
theorem unif_transform {a b : ℝ} (hab : a < b) {T f F : ℝ → ℝ} (hT : Measurable T) (hF : IsCDF F) (hD : IsDensityOf f F)
    (h : ∀ u ∈ Ioo a b, F (T u) = (u - a) / (b - a)) : (unif a b).map T = Law f := by
  have := unif_prob hab
  have : IsProbabilityMeasure ((unif a b).map T) := Measure.isProbabilityMeasure_map hT.aemeasurable
  have w : 0 < b - a := by linarith
  refine law_ext hD fun x => ?_
  rw [Measure.map_apply hT measurableSet_Iic, unif_apply]
  have e : (Icc a b ∩ T ⁻¹' Iic x : Set ℝ) =ᵐ[volume] Icc a (a + F x * (b - a)) := by
    filter_upwards [compl_mem_ae_iff.2 (measure_singleton a), compl_mem_ae_iff.2 (measure_singleton b),
      compl_mem_ae_iff.2 (measure_singleton (a + F x * (b - a)))] with u ua ub uc
    replace ua : u ≠ a := ua
    replace ub : u ≠ b := ub
    replace uc : u ≠ a + F x * (b - a) := uc
    refine propext ⟨?_, ?_⟩
    · rintro ⟨⟨h1, h2⟩, h3⟩
      refine ⟨h1, ?_⟩
      have := hF.mono (show T u ≤ x from h3)
      rw [h u ⟨lt_of_le_of_ne h1 ua.symm, lt_of_le_of_ne h2 ub⟩, div_le_iff₀ w] at this
      linarith
    · rintro ⟨h1, h2⟩
      have h2' := lt_of_le_of_ne h2 uc
      have h1' := lt_of_le_of_ne h1 ua.symm
      have hb : u < b := by
        have := hF.le_one x
        nlinarith
      refine ⟨⟨h1, hb.le⟩, show T u ≤ x from not_lt.1 fun h3 => ?_⟩
      have := hF.mono (show x ≤ T u from h3.le)
      rw [h u ⟨h1', hb⟩, le_div_iff₀ w] at this
      linarith
  rw [measure_congr e, Real.volume_Icc, add_sub_cancel_left, ENNReal.ofReal_mul (hF.nonneg x), mul_comm, mul_assoc,
    ENNReal.mul_inv_cancel (by simpa using hab) ENNReal.ofReal_ne_top, mul_one]

/-- inverse transform sampling from the upper tail -/
theorem unif_transform_anti {a b : ℝ} (hab : a < b) {T f F : ℝ → ℝ} (hT : Measurable T) (hF : IsCDF F) (hD : IsDensityOf f F)
    (h : ∀ u ∈ Ioo a b, F (T u) = (b - u) / (b - a)) : (unif a b).map T = Law f := by
  have := unif_prob hab
  have : IsProbabilityMeasure ((unif a b).map T) := Measure.isProbabilityMeasure_map hT.aemeasurable
  have w : 0 < b - a := by linarith
  refine law_ext hD fun x => ?_
  rw [Measure.map_apply hT measurableSet_Iic, unif_apply]
  have e : (Icc a b ∩ T ⁻¹' Iic x : Set ℝ) =ᵐ[volume] Icc (b - F x * (b - a)) b := by
    filter_upwards [compl_mem_ae_iff.2 (measure_singleton a), compl_mem_ae_iff.2 (measure_singleton b),
      compl_mem_ae_iff.2 (measure_singleton (b - F x * (b - a)))] with u ua ub uc
    replace ua : u ≠ a := ua
    replace ub : u ≠ b := ub
    replace uc : u ≠ b - F x * (b - a) := uc
    refine propext ⟨?_, ?_⟩
    · rintro ⟨⟨h1, h2⟩, h3⟩
      refine ⟨?_, h2⟩
      have := hF.mono (show T u ≤ x from h3)
      rw [h u ⟨lt_of_le_of_ne h1 ua.symm, lt_of_le_of_ne h2 ub⟩, div_le_iff₀ w] at this
      linarith
    · rintro ⟨h1, h2⟩
      have h2' := lt_of_le_of_ne h2 ub
      have h1' := lt_of_le_of_ne h1 uc.symm
      have hb : a < u := by
        have := hF.le_one x
        nlinarith
      refine ⟨⟨hb.le, h2⟩, show T u ≤ x from not_lt.1 fun h3 => ?_⟩
      have := hF.mono (show x ≤ T u from h3.le)
      rw [h u ⟨hb, h2'⟩, le_div_iff₀ w] at this
      linarith
  rw [measure_congr e, Real.volume_Icc, sub_sub_cancel, ENNReal.ofReal_mul (hF.nonneg x), mul_comm, mul_assoc,
    ENNReal.mul_inv_cancel (by simpa using hab) ENNReal.ofReal_ne_top, mul_one]

/-- the law that a computation follows is unique -/
theorem Follows.unique {σ : Type} [MeasurableSpace σ] {P : Measure σ} {X : σ → Except Panic F64} {μ ν : Measure ℝ}
    (h : Follows P X μ) (h' : Follows P X ν) : μ = ν := by
  obtain ⟨Y, hY, e, rfl⟩ := h
  obtain ⟨Z, hZ, e', rfl⟩ := h'
  refine Measure.map_congr ?_
  filter_upwards [e, e'] with s hs hs'
  obtain ⟨x, hx, h1⟩ := hs
  obtain ⟨y, hy, h2⟩ := hs'
  rw [hx] at hy; cases hy
  exact h1.eq h2

/-- post-processing a draw -/
theorem Follows.map {σ : Type} [MeasurableSpace σ] {P : Measure σ} {X : σ → Except Panic F64} {μ : Measure ℝ}
    (h : Follows P X μ) {T : ℝ → ℝ} (hT : Measurable T) {t : F64 → F64} {A : Set ℝ} (hA : MeasurableSet A) (hμ : μ Aᶜ = 0)
    (ht : ∀ x u, u ∈ A → x.Is u → (t x).Is (T u)) {Z : σ → Except Panic F64} (hZ : ∀ s x, X s = .ok x → Z s = .ok (t x)) :
    Follows P Z (μ.map T) := by
  obtain ⟨Y, hY, e, rfl⟩ := h
  refine ⟨T ∘ Y, hT.comp hY, ?_, (Measure.map_map hT hY).symm⟩
  rw [Measure.map_apply hY hA.compl] at hμ
  have : ∀ᵐ s ∂P, Y s ∈ A := by
    rw [ae_iff]; exact hμ
  filter_upwards [e, this] with s hs hsA
  obtain ⟨x, hx, h1⟩ := hs
  exact ⟨t x, hZ s x hx, ht x _ hsA h1⟩

section
theorem Documented.unique {c : RealSampler} {μ ν : Measure ℝ} (h : Documented c μ) (h' : Documented c ν) : μ = ν := by
  cases h with
  | exp a0 _ => cases h' with | exp b0 _ => rw [a0.eq b0]
  | cauchy a0 a1 _ => cases h' with | cauchy b0 b1 _ => rw [a0.eq b0, NNReal.coe_injective (a1.eq b1)]
  | pareto a0 a1 _ _ => cases h' with | pareto b0 b1 _ _ => rw [a0.eq b0, a1.eq b1]
  | weibull a0 a1 _ _ => cases h' with | weibull b0 b1 _ _ => rw [a0.eq b0, a1.eq b1]
  | triangular a0 a1 a2 _ _ _ => cases h' with | triangular b0 b1 b2 _ _ _ => rw [a0.eq b0, a1.eq b1, a2.eq b2]
  | uniform a0 a1 _ => cases h' with | uniform b0 b1 _ => rw [a0.eq b0, a1.eq b1]
  | uniformIncl a0 a1 _ => cases h' with | uniformIncl b0 b1 _ => rw [a0.eq b0, a1.eq b1]
  | gamma a0 a1 _ _ => cases h' with | gamma b0 b1 _ _ => rw [a0.eq b0, a1.eq b1]
  | beta a0 a1 _ _ => cases h' with | beta b0 b1 _ _ => rw [a0.eq b0, a1.eq b1]
  | chiSquared a0 _ => cases h' with | chiSquared b0 _ => rw [a0.eq b0]
  | fisherF a0 a1 _ _ => cases h' with | fisherF b0 b1 _ _ => rw [a0.eq b0, a1.eq b1]
  | studentT a0 _ => cases h' with | studentT b0 _ => rw [a0.eq b0]
  | poisson a0 _ => cases h' with | poisson b0 _ => rw [NNReal.coe_injective (a0.eq b0)]

theorem Documented.prob {c : RealSampler} {μ : Measure ℝ} (h : Documented c μ) : IsProbabilityMeasure μ := by
  cases h
  case exp _ h => exact isProbabilityMeasure_expMeasure h
  case cauchy => infer_instance
  case pareto _ _ h h' => exact isProbabilityMeasure_paretoMeasure h h'
  case weibull =>
    have := isProbabilityMeasure_expMeasure one_pos
    exact Measure.isProbabilityMeasure_map (Measurable.aemeasurable (by fun_prop))
  case triangular =>
    have := unif_prob zero_lt_one
    exact Measure.isProbabilityMeasure_map (triangularDraw_measurable _ _ _).aemeasurable
  case uniform _ _ h => exact unif_prob h
  case uniformIncl _ _ h => exact unif_prob h
  case gamma _ _ h h' => exact isProbabilityMeasure_gammaMeasure h (by positivity)
  case beta _ _ h h' => exact isProbabilityMeasureBeta h h'
  case chiSquared _ h => exact isProbabilityMeasure_gammaMeasure (by positivity) (by norm_num)
  case fisherF m n _ _ h h' =>
    have : IsProbabilityMeasure (chi2 m) := isProbabilityMeasure_gammaMeasure (by positivity) (by norm_num)
    have : IsProbabilityMeasure (chi2 n) := isProbabilityMeasure_gammaMeasure (by positivity) (by norm_num)
    exact Measure.isProbabilityMeasure_map (Measurable.aemeasurable (by fun_prop))
  case studentT n _ h =>
    have : IsProbabilityMeasure (chi2 n) := isProbabilityMeasure_gammaMeasure (by positivity) (by norm_num)
    exact Measure.isProbabilityMeasure_map (Measurable.aemeasurable (by fun_prop))
  case poisson => exact Measure.isProbabilityMeasure_map (Measurable.aemeasurable (by fun_prop))

theorem DocumentedNat.unique {c : NatSampler} {p q : ℕ → ℝ} (h : DocumentedNat c p) (h' : DocumentedNat c q) : p = q := by
  cases h with
  | binomial a0 _ _ => cases h' with | binomial b0 _ _ => rw [a0.eq b0]
  | geometric a0 _ _ => cases h' with | geometric b0 _ _ => rw [a0.eq b0]

theorem DocumentedNat.pmf {c : NatSampler} {p : ℕ → ℝ} (h : DocumentedNat c p) : IsPMF p := by
  cases h
  case binomial _ h0 h1 => exact bin_pmf h0 h1 _
  case geometric _ h0 h1 => exact geom_pmf h0 h1

theorem massMeasure_singleton {α : Type} [MeasurableSpace α] [MeasurableSingletonClass α] (p : α → ℝ) (k : α) :
    massMeasure p {k} = ENNReal.ofReal (p k) := by
  classical
  unfold massMeasure
  rw [Measure.sum_apply _ (measurableSet_singleton k), tsum_eq_single k]
  · simp
  · intro b hb
    simp [Measure.dirac_apply, indicator, hb]

theorem massMeasure_prob {α : Type} [MeasurableSpace α] {p : α → ℝ} (h : IsPMF p) : IsProbabilityMeasure (massMeasure p) := by
  constructor
  unfold massMeasure
  rw [Measure.sum_apply _ MeasurableSet.univ]
  simp only [Measure.smul_apply, measure_univ, smul_eq_mul, mul_one]
  rw [← ENNReal.ofReal_tsum_of_nonneg h.1 h.2.summable, h.2.tsum_eq, ENNReal.ofReal_one]

open Classical in
noncomputable def pickReal (c : RealSampler) : Measure ℝ := if h : ∃ μ, Documented c μ then h.choose else Measure.dirac 0
open Classical in
noncomputable def pickNat (c : NatSampler) : Measure ℕ := if h : ∃ p, DocumentedNat c p then massMeasure h.choose else Measure.dirac 0
open Classical in
noncomputable def pickInt (c : ℤ × ℤ) : Measure ℤ :=
  if c.1 ≤ c.2 then massMeasure (uniformPMF c.1 c.2) else Measure.dirac 0
open Classical in
noncomputable def pickBool (c : F64) : Measure Bool :=
  if h : ∃ p, c.Is p ∧ 0 ≤ p ∧ p ≤ 1 then massMeasure (bernPMF h.choose) else Measure.dirac true

theorem pickReal_prob (c : RealSampler) : IsProbabilityMeasure (pickReal c) := by
  unfold pickReal; split
  · rename_i h; exact h.choose_spec.prob
  · infer_instance
theorem pickNat_prob (c : NatSampler) : IsProbabilityMeasure (pickNat c) := by
  unfold pickNat; split
  · rename_i h; exact massMeasure_prob h.choose_spec.pmf
  · infer_instance
theorem pickInt_prob (c : ℤ × ℤ) : IsProbabilityMeasure (pickInt c) := by
  unfold pickInt; split
  · rename_i h
    obtain ⟨w, hw⟩ := Int.le.dest h
    refine massMeasure_prob ?_
    have := uniformD_pmf c.1 w
    rw [hw] at this
    exact this
  · infer_instance
theorem pickBool_prob (c : F64) : IsProbabilityMeasure (pickBool c) := by
  unfold pickBool; split
  · rename_i h; exact massMeasure_prob (bern_pmf h.choose_spec.2.1 h.choose_spec.2.2)
  · infer_instance

/-- one independent value for every sampler -/
abbrev Tape : Type := (RealSampler → ℝ) × (NatSampler → ℕ) × (ℤ × ℤ → ℤ) × (F64 → Bool)

/-- the source that reads the tape -/
noncomputable def tapeSrc : RandSrc Tape where
  draw c s := (F64.fin (s.1 c), s)
  drawNat c s := (s.2.1 c, s)
  drawInt a b s := (s.2.2.1 (a, b), s)
  genBool p s := (s.2.2.2 p, s)

noncomputable def tapeLaw : Measure Tape :=
  (Measure.infinitePi pickReal).prod ((Measure.infinitePi pickNat).prod ((Measure.infinitePi pickInt).prod (Measure.infinitePi pickBool)))

theorem tape_faithful : Faithful tapeSrc tapeLaw := by
  have i1 := pickReal_prob
  have i2 := pickNat_prob
  have i3 := pickInt_prob
  have i4 := pickBool_prob
  have k1 : tapeLaw.map Prod.fst = Measure.infinitePi pickReal := by
    unfold tapeLaw; rw [Measure.map_fst_prod, measure_univ, one_smul]
  have k2 : tapeLaw.map (fun s => s.2.1) = Measure.infinitePi pickNat := by
    have : (fun s : Tape => s.2.1) = Prod.fst ∘ Prod.snd := rfl
    rw [this, ← Measure.map_map measurable_fst measurable_snd]
    unfold tapeLaw; rw [Measure.map_snd_prod, measure_univ, one_smul, Measure.map_fst_prod, measure_univ, one_smul]
  have k3 : tapeLaw.map (fun s => s.2.2.1) = Measure.infinitePi pickInt := by
    have : (fun s : Tape => s.2.2.1) = Prod.fst ∘ Prod.snd ∘ Prod.snd := rfl
    rw [this, ← Measure.map_map measurable_fst (measurable_snd.comp measurable_snd), ← Measure.map_map measurable_snd measurable_snd]
    unfold tapeLaw
    rw [Measure.map_snd_prod, measure_univ, one_smul, Measure.map_snd_prod, measure_univ, one_smul, Measure.map_fst_prod,
      measure_univ, one_smul]
  have k4 : tapeLaw.map (fun s => s.2.2.2) = Measure.infinitePi pickBool := by
    have : (fun s : Tape => s.2.2.2) = Prod.snd ∘ Prod.snd ∘ Prod.snd := rfl
    rw [this, ← Measure.map_map measurable_snd (measurable_snd.comp measurable_snd), ← Measure.map_map measurable_snd measurable_snd]
    unfold tapeLaw
    rw [Measure.map_snd_prod, measure_univ, one_smul, Measure.map_snd_prod, measure_univ, one_smul, Measure.map_snd_prod,
      measure_univ, one_smul]
  refine ⟨by unfold tapeLaw; infer_instance, fun c μ h => ⟨fun s => s.1 c, by fun_prop, fun s => F64.Is.fin _, ?_⟩, fun c p h k => ?_,
    fun a b h k => ?_, fun a p ha h0 h1 => ?_⟩
  · have : (fun s : Tape => s.1 c) = (fun f => f c) ∘ Prod.fst := rfl
    rw [this, ← Measure.map_map (measurable_pi_apply c) measurable_fst, k1, Measure.infinitePi_map_eval]
    unfold pickReal
    have he : ∃ μ, Documented c μ := ⟨μ, h⟩
    rw [dif_pos he]
    exact he.choose_spec.unique h
  · have : {s : Tape | (tapeSrc.drawNat c s).1 = k} = (fun s => s.2.1) ⁻¹' ((fun f => f c) ⁻¹' {k}) := rfl
    rw [this, ← Measure.map_apply (by fun_prop) (measurable_pi_apply c (measurableSet_singleton k)), k2,
      ← Measure.map_apply (measurable_pi_apply c) (measurableSet_singleton k), Measure.infinitePi_map_eval]
    unfold pickNat
    have he : ∃ p, DocumentedNat c p := ⟨p, h⟩
    rw [dif_pos he, massMeasure_singleton, he.choose_spec.unique h]
  · have : {s : Tape | (tapeSrc.drawInt a b s).1 = k} = (fun s => s.2.2.1) ⁻¹' ((fun f => f (a, b)) ⁻¹' {k}) := rfl
    rw [this, ← Measure.map_apply (by fun_prop) (measurable_pi_apply (a, b) (measurableSet_singleton k)), k3,
      ← Measure.map_apply (measurable_pi_apply (a, b)) (measurableSet_singleton k), Measure.infinitePi_map_eval]
    unfold pickInt
    rw [if_pos h, massMeasure_singleton]
  · have (v : Bool) : tapeLaw {s : Tape | (tapeSrc.genBool a s).1 = v} = ENNReal.ofReal (bernPMF p v) := by
      have : {s : Tape | (tapeSrc.genBool a s).1 = v} = (fun s => s.2.2.2) ⁻¹' ((fun f => f a) ⁻¹' {v}) := rfl
      rw [this, ← Measure.map_apply (by fun_prop) (measurable_pi_apply a (measurableSet_singleton v)), k4,
        ← Measure.map_apply (measurable_pi_apply a) (measurableSet_singleton v), Measure.infinitePi_map_eval]
      unfold pickBool
      have he : ∃ p, a.Is p ∧ 0 ≤ p ∧ p ≤ 1 := ⟨p, ha, h0, h1⟩
      rw [dif_pos he, massMeasure_singleton, he.choose_spec.1.eq ha]
    exact ⟨this true, this false⟩
end

/-- two laws followed by the same `sample` method are equal -/
theorem SampleFollows.unique {X : ∀ σ : Type, RandSrc σ → σ → Except Panic F64 × σ} {μ ν : Measure ℝ} (h : SampleFollows X μ)
    (h' : SampleFollows X ν) : μ = ν :=
  (h Tape tapeSrc tapeLaw tape_faithful).unique (h' Tape tapeSrc tapeLaw tape_faithful)

theorem law_injective {f g F G : ℝ → ℝ} (hf : IsDensityOf f F) (hg : IsDensityOf g G) (h : Law f = Law g) : F = G := by
  funext x
  have h1 := hf.law_eq _ (measurableSet_Iic (a := x))
  have h2 := hg.law_eq _ (measurableSet_Iic (a := x))
  rw [← hf.cdf] at h1
  rw [← hg.cdf] at h2
  rw [h, h2] at h1
  have n1 : 0 ≤ F x := by rw [hf.cdf]; exact integral_nonneg fun t => hf.nonneg t
  have n2 : 0 ≤ G x := by rw [hg.cdf]; exact integral_nonneg fun t => hg.nonneg t
  exact ((ENNReal.ofReal_eq_ofReal_iff n2 n1).1 h1).symm
end Rstat.Spec
