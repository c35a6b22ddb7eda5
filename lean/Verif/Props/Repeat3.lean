import Verif.Props.Repeat
import Verif.Props.Repeat2

/-! C213, C215, C217: where the joint law of successive samples is not the one the distribution describes. -/
set_option linter.unusedSectionVars false
namespace Rstat
open F64 Consts Spec MeasureTheory ProbabilityTheory Set Matrix

section
variable {σ V W : Type} [MeasurableSpace σ] [MeasurableSpace W] {P : Measure σ} {R : V → W → Prop} {X : σ → Except Panic V × σ} {μ ν : Measure W}

/-- the law of the first of a sequence of independent samples -/
theorem Spec.IID.first [IsProbabilityMeasure μ] (h : IID P R X μ) :
    ∃ Y : σ → W, Measurable Y ∧ (∀ᵐ s ∂P, ∃ x, (X s).1 = .ok x ∧ R x (Y s)) ∧ P.map Y = μ := by
  obtain ⟨Y, hY, h1, h2⟩ := h 1
  refine ⟨fun s => Y s 0, (measurable_pi_apply 0).comp hY, ?_, ?_⟩
  · filter_upwards [h1] with s hs
    obtain ⟨xs, e, hR⟩ := hs
    refine ⟨xs 0, ?_, hR 0⟩
    have e' : [(X s).1] = [Except.ok (xs 0)] := by
      rw [List.ofFn_succ, List.ofFn_zero] at e
      exact e
    exact List.head_eq_of_cons_eq e'
  · have e : (fun s => Y s 0) = (fun y : Fin 1 → W => y 0) ∘ Y := rfl
    rw [e, ← Measure.map_map (measurable_pi_apply 0) hY, h2]
    exact (measurePreserving_eval (fun _ : Fin 1 => μ) 0).map_eq

/-- a sampler has only one law -/
theorem Spec.IID.unique [IsProbabilityMeasure μ] [IsProbabilityMeasure ν] (hR : ∀ x w w', R x w → R x w' → w = w') (h : IID P R X μ)
    (h' : IID P R X ν) : μ = ν := by
  obtain ⟨Y, hY, h1, h2⟩ := h.first
  obtain ⟨Z, hZ, h3, h4⟩ := h'.first
  rw [← h2, ← h4]
  refine Measure.map_congr ?_
  filter_upwards [h1, h3] with s a b
  obtain ⟨x, ex, rx⟩ := a
  obtain ⟨y, ey, ry⟩ := b
  rw [ex] at ey; cases ey
  exact hR x _ _ rx ry

/-- a computation that always panics has no law at all -/
theorem Spec.IID.not_of_error [IsProbabilityMeasure P] [IsProbabilityMeasure μ] (he : ∀ s, ∃ e, (X s).1 = .error e) : ¬ IID P R X μ := by
  intro h
  obtain ⟨Y, -, h1, -⟩ := h.first
  obtain ⟨s, x, hx, -⟩ := h1.exists
  obtain ⟨e, he⟩ := he s
  rw [he] at hx; cases hx
end

theorem is_unique (x : F64) (w w' : ℝ) (h : x.Is w) (h' : x.Is w') : w = w' := h.eq h'
theorem vecIs_unique {n : ℕ} (x : Fin n → F64) (w w' : EuclideanSpace ℝ (Fin n)) (h : VecIs x w) (h' : VecIs x w') : w = w' := by
  ext i; exact (h i).eq (h' i)
theorem arrIs_unique {n : ℕ} (x : Fin n → F64) (w w' : Fin n → ℝ) (h : ArrIs x w) (h' : ArrIs x w') : w = w' :=
  funext fun i => (h i).eq (h' i)

section
variable [FP] [FP.Exact]

/-- C213 (violated): for every rate `β` other than 1 and every source that behaves as documented, successive Gamma samples do not have the
Gamma law of shape `α` and rate `β` -/
theorem C213_gamma_violated {a b : F64} {α β : ℝ} {d : Gamma} (h : Gamma.new a b = .ok d) (ha : a.Is α) (hb : b.Is β) (hβ : β ≠ 1)
    {σ : Type} [MeasurableSpace σ] {g : RandSrc σ} {P : Measure σ} (hf : Regenerates g P) :
    ¬ IID P F64.Is (fun s => d.sample g s) (Law (gammaPDFReal α β)) := by
  intro hc
  have h0 := pos_of_lt (Gamma.new_ok.1 h).1 ha
  have h1 := pos_of_lt (Gamma.new_ok.1 h).2.1 hb
  have := (gamma_density h0 h1).2.isProbability
  have := (gamma_density h0 (one_div_pos.2 h1)).2.isProbability
  have e := (C213_gamma_partial h ha hb σ g P hf).unique is_unique hc
  obtain ⟨k1, k2⟩ := C193_gamma_sample_violated h ha hb
  exact hβ (k2.1 (e ▸ k1))

/-- C213 (Fréchet): successive samples are independent, with the Weibull law of scale 1 and the given shape (see C200) -/
theorem C213_frechet_partial {a : F64} {α : ℝ} {d : Frechet} (h : Frechet.new a = .ok d) (ha : a.Is α) :
    SamplesIID F64.Is (fun _ g s => d.sample g s) (Law (weibullPDF 1 α)) := by
  have hx := h
  obtain ⟨h0, rfl⟩ := Frechet.new_ok.1 h
  have hα : 0 < α := pos_of_lt h0 ha
  obtain ⟨hF, hD⟩ := weibull_density one_pos hα
  have hV := C69_frechet_sampling_violated hx ha
  have key : ∀ (x : F64) (u : ℝ), u ∈ Ioo (0 : ℝ) 1 → x.Is u →
      (Frechet.sampleFrom ⟨a⟩ x).Is ((-Real.log u) ^ (1 / α)) := fun x u hu hx => by
    have h0 := hu.1
    have hl : 0 < -Real.log u := neg_pos.2 (Real.log_neg hu.1 hu.2)
    unfold Frechet.sampleFrom; fev
  intro σ _ g P hf
  have := hf.prob
  have := unif_prob (zero_lt_one (α := ℝ))
  have hT : Measurable fun r : ℝ => (-Real.log r) ^ (1 / α) := by fun_prop
  rw [← unif_transform_anti one_pos hT hF hD fun u hu => ?_]
  · have : IsProbabilityMeasure ((unif 0 1).map fun r : ℝ => (-Real.log r) ^ (1 / α)) :=
      Measure.isProbabilityMeasure_map hT.aemeasurable
    refine Renews.iid ((std_uniform_renews hf).map hT (t := Frechet.sampleFrom ⟨a⟩) (A := Ioo 0 1) measurableSet_Ioo ?_ key
      (fun s x hx => ?_) fun s => ?_)
    · rw [unif_std, Measure.restrict_congr_set Ioo_ae_eq_Icc.symm, Measure.restrict_apply measurableSet_Ioo.compl]; simp
    · show (Frechet.sample g s ⟨a⟩).1 = _
      unfold Frechet.sample
      revert hx
      show (stdUniform g s).1 = _ → _
      rcases stdUniform g s with ⟨_ | _, _⟩
      · intro hx; cases hx
      · intro hx; cases hx; rfl
    · show (Frechet.sample g s ⟨a⟩).2 = (stdUniform g s).2
      unfold Frechet.sample
      rcases stdUniform g s with ⟨_ | _, _⟩ <;> rfl
  · obtain ⟨x, h1, h2, -⟩ := hV.1 (fin u) u (Is.fin u) hu.1 hu.2
    rw [(key (fin u) u hu (Is.fin u)).eq h1, h2]; ring

/-- C213 (violated): for no shape and no source that behaves as documented do successive Fréchet samples have the Fréchet law -/
theorem C213_frechet_violated {a : F64} {α : ℝ} {d : Frechet} (h : Frechet.new a = .ok d) (ha : a.Is α)
    {σ : Type} [MeasurableSpace σ] {g : RandSrc σ} {P : Measure σ} (hf : Regenerates g P) :
    ¬ IID P F64.Is (fun s => d.sample g s) (Law (frechetPDF α)) := by
  intro hc
  have h0 := pos_of_lt (Frechet.new_ok.1 h).1 ha
  have := (frechet_density h0).2.isProbability
  have := (weibull_density one_pos h0).2.isProbability
  have e := (C213_frechet_partial h ha σ g P hf).unique is_unique hc
  obtain ⟨k1, k2⟩ := C200_frechet_sample_violated h ha
  exact k2 (e ▸ k1)

/-- C213 (violated): a Pareto distribution with a scale that is not positive is accepted and never gives a sample -/
theorem C213_pareto_violated {a b : F64} {m : ℝ} (ha : a.Is m) (hm : m ≤ 0) (hb : 0 < b) :
    ∃ d, Pareto.new a b = .ok d ∧ ∀ (σ : Type) [MeasurableSpace σ] (g : RandSrc σ) (P : Measure σ) (μ : Measure ℝ) [IsProbabilityMeasure P]
      [IsProbabilityMeasure μ], ¬ IID P F64.Is (fun s => d.sample g s) μ := by
  obtain ⟨d, h, hs⟩ := C192_pareto_sample_violated ha hm hb
  exact ⟨d, h, fun σ _ g P μ _ _ => IID.not_of_error fun s => ⟨_, hs σ g s⟩⟩

/-- C213 (violated): a Student distribution whose number of degrees of freedom is not positive is accepted and never gives a sample -/
theorem C213_student_violated {a : F64} {n : ℝ} (ha : a.Is n) (hn : n ≤ 0) :
    ∃ d, StudentT.new a = .ok d ∧ ∀ (σ : Type) [MeasurableSpace σ] (g : RandSrc σ) (P : Measure σ) (μ : Measure ℝ) [IsProbabilityMeasure P]
      [IsProbabilityMeasure μ], ¬ IID P F64.Is (fun s => d.sample g s) μ := by
  obtain ⟨d, h, hs⟩ := C195_student_sample_violated ha hn
  exact ⟨d, h, fun σ _ g P μ _ _ => IID.not_of_error fun s => ⟨_, hs σ g s⟩⟩

/-- C213 (violated): a discrete uniform distribution whose upper end does not fit never gives a sample -/
theorem C213_uniform_int_violated {pr : Profile} {lb : ℤ} {w : ℕ} {d : UniformI} (h1 : I64MIN ≤ lb) (h2 : lb ≤ I64MAX)
    (h3 : (w : ℤ) < I64MAX) (ho : I64MAX < lb + w) (h : UniformI.new pr lb w = .ok (.ok d)) (σ : Type) [MeasurableSpace σ] (g : RandSrc σ)
    (P : Measure σ) (μ : Measure ℤ) [IsProbabilityMeasure P] [IsProbabilityMeasure μ] : ¬ IID P Eq (fun s => d.sample g s pr) μ :=
  IID.not_of_error fun s => C199_uniform_int_sample_violated h1 h2 h3 ho h σ g s
end

/-- C217 (violated): for no parameters and no source of standard normal variates do successive log-normal samples have the log-normal law
that `cdf` describes -/
theorem C217_lognormal_violated [FP] [FP.Exact] {a b : F64} {μ v : ℝ} {d : LogNormal} (h : LogNormal.new a b = .ok d) (ha : a.Is μ) (hb : b.Is v)
    {σ : Type} [MeasurableSpace σ] {g : NormalRng σ} {P : Measure σ} (hg : NormalSource g P) :
    ¬ IID P F64.Is (fun s => d.sample g s) (Law (logNormalPDF μ v)) := by
  intro hc
  have hv : 0 < v := pos_of_lt (LogNormal.new_ok.1 h).1 hb
  obtain ⟨M, S, h1, h2, h3, hi⟩ := C217_lognormal_partial h ha hb hg
  obtain ⟨M', S', k1, k2, k3, -, -, k5, k6⟩ := C171_lognormal_sample_violated h ha hb
  obtain rfl := h1.eq k1
  have hd := (logNormal_density μ hv).2
  have := hd.isProbability
  have : IsProbabilityMeasure ((gaussianReal M (S ^ 2).toNNReal).map Real.exp) := Measure.isProbabilityMeasure_map (by fun_prop)
  have e := hi.unique is_unique hc
  have h4 := hd.cdf_law (Real.exp M)
  rw [← e, cdf_eq_real, Measure.real, Measure.map_apply (by fun_prop) measurableSet_Iic] at h4
  have h5 : Real.exp ⁻¹' Iic (Real.exp M) = Iic M := by ext x; simp
  rw [h5] at h4
  have h6 : (gaussianReal M (S ^ 2).toNNReal) (Iic M) = (gaussianReal 0 1) (Iic 0) := by
    have e1 : (gaussianReal 0 1).map (fun z => M + S * z) = gaussianReal M (S ^ 2).toNNReal := by
      have e1 : (fun z : ℝ => M + S * z) = (fun z => M + z) ∘ fun z => S * z := rfl
      rw [e1, ← Measure.map_map (by fun_prop) (by fun_prop), gaussianReal_map_const_mul, gaussianReal_map_const_add]
      congr 1
      · ring
      · rw [mul_one]; ext; simp [sq_nonneg]
    rw [← e1, Measure.map_apply (by fun_prop) measurableSet_Iic]
    congr 1
    ext z
    show M + S * z ≤ M ↔ z ≤ 0
    constructor
    · intro hz; nlinarith
    · intro hz; nlinarith
  rw [h6, ← Measure.real, k5] at h4
  exact absurd h4 k6.ne

/-- C217 (violated): for no concentrations and no source of Gamma variates do successive Dirichlet samples have the Dirichlet law -/
theorem C217_dirichlet_violated [FP] [FP.Exact] {m : ℕ} {al : Fin (m + 1) → F64} {a : Fin (m + 1) → ℝ} (hal : ∀ i, (al i).Is (a i)) (ha : ∀ i, 0 < a i)
    {σ : Type} [MeasurableSpace σ] {g : GammaRng σ} {P : Measure σ} (hg : GammaSource g P) :
    ¬ IID P ArrIs (fun s => (Dirichlet.newUnchecked al).sample g s) (dirichletLaw a) := by
  intro hc
  have hp : ∀ i, IsProbabilityMeasure (gammaMeasure (a i) 1) := fun i => isProbabilityMeasure_gammaMeasure (ha i) one_pos
  have hT : Measurable fun (G : Fin (m + 1) → ℝ) (i : Fin (m + 1)) => G i / ∑ j, a j := by fun_prop
  have : IsProbabilityMeasure ((Measure.pi fun i => gammaMeasure (a i) 1).map fun (G : Fin (m + 1) → ℝ) (i : Fin (m + 1)) => G i / ∑ j, a j) :=
    Measure.isProbabilityMeasure_map hT.aemeasurable
  have := dirichletLaw_prob ha
  have e := (C217_dirichlet_partial hal ha hg).unique arrIs_unique hc
  have h1 := dirichlet_ae ha
  rw [← e, ae_map_iff hT.aemeasurable] at h1
  · have hS : 0 < ∑ j, a j := Finset.sum_pos (fun i _ => ha i) ⟨0, Finset.mem_univ _⟩
    obtain ⟨G, h2, h3⟩ := (h1.and (gamma_total_null ha (∑ i, a i))).exists
    refine h3 ?_
    have := h2.2
    rw [← Finset.sum_div, div_eq_one_iff_eq hS.ne'] at this
    exact this
  · refine MeasurableSet.inter ?_ ?_
    · have : {x : Fin (m + 1) → ℝ | ∀ i, 0 < x i} = univ.pi fun _ => Ioi 0 := by ext x; simp
      show MeasurableSet {x : Fin (m + 1) → ℝ | ∀ i, 0 < x i}
      rw [this]; exact MeasurableSet.univ_pi fun _ => measurableSet_Ioi
    · exact measurableSet_eq_fun (by fun_prop) measurable_const

/-! ### C215 -/
theorem gauss_diag_inj [FP] [FP.Exact] {n : ℕ} {m v w : Fin n → ℝ} (hv : ∀ i, 0 < v i) (hw : ∀ i, 0 < w i)
    (e : multivariateGaussian (WithLp.toLp 2 m) (diagonal v) = multivariateGaussian (WithLp.toLp 2 m) (diagonal w)) : v = w :=
  expGauss_diag_inj hv hw (congrArg expLaw e)

section
variable [FP] [FP.Exact] {σ : Type} [MeasurableSpace σ] {g : NormalRng σ} {P : Measure σ}

theorem expLaw_prob {n : ℕ} (Q : Measure (EuclideanSpace ℝ (Fin n))) [IsProbabilityMeasure Q] : IsProbabilityMeasure (expLaw Q) :=
  Measure.isProbabilityMeasure_map (by fun_prop)

/-- C215 (violated, diagonal covariance): unless every variance is 1, successive samples do not have the Gaussian law of the given mean and
covariance, nor their exponentials the log-Gaussian one -/
theorem C215_diagonal_violated {n : ℕ} {mu S : Fin n → F64} {m v : Fin n → ℝ} {d : DiagNormal n} (h : DiagNormal.new mu S = .ok d)
    (hm : ∀ i, (mu i).Is (m i)) (hS : ∀ i, (S i).Is (v i)) (hg : NormalSource g P) (hv : ∃ i, v i ≠ 1) :
    ¬ IID P VecIs (total fun s => d.sample g s) (multivariateGaussian (WithLp.toLp 2 m) (diagonal v)) ∧
    ¬ IID P ArrIs (total fun s => MvLogNormal.sample (d.sample g s)) (expLaw (multivariateGaussian (WithLp.toLp 2 m) (diagonal v))) := by
  obtain ⟨i, hi⟩ := hv
  have hp := (diag_facts h hS).1
  have key : ¬ (fun i => v i ^ 2) = v := fun e => by
    have h1 : v i ^ 2 = v i := congrFun e i
    rw [sq] at h1
    exact hi (mul_left_cancel₀ (hp i).ne' (h1.trans (mul_one _).symm))
  have hp2 : ∀ i, 0 < v i ^ 2 := fun i => pow_pos (hp i) 2
  refine ⟨fun hc => ?_, fun hc => ?_⟩
  · exact key (gauss_diag_inj hp2 hp ((C215_diagonal_normal_partial h hm hS hg).unique vecIs_unique hc))
  · have := expLaw_prob (multivariateGaussian (WithLp.toLp 2 m) (diagonal v))
    have := expLaw_prob (multivariateGaussian (WithLp.toLp 2 m) (diagonal fun i => v i ^ 2))
    exact key (expGauss_diag_inj hp2 hp ((C215_diagonal_lognormal_partial h hm hS hg).unique arrIs_unique hc))

/-- C215 (violated, isotropic covariance): unless the variance is 1 -/
theorem C215_isotropic_violated {n : ℕ} (hn : 0 < n) {mu : Fin n → F64} {S : F64} {m : Fin n → ℝ} {v : ℝ} {d : IsoNormal n} (h : IsoNormal.new mu S = .ok d)
    (hm : ∀ i, (mu i).Is (m i)) (hS : S.Is v) (hg : NormalSource g P) (hv : v ≠ 1) :
    ¬ IID P VecIs (total fun s => d.sample g s) (multivariateGaussian (WithLp.toLp 2 m) (diagonal fun _ => v)) ∧
    ¬ IID P ArrIs (total fun s => MvLogNormal.sample (d.sample g s)) (expLaw (multivariateGaussian (WithLp.toLp 2 m) (diagonal fun _ => v))) := by
  have hp := (iso_facts h hS).1
  have key : ¬ (fun _ : Fin n => v ^ 2) = fun _ => v := fun e => by
    have h1 : v ^ 2 = v := congrFun e ⟨0, hn⟩
    rw [sq] at h1
    exact hv (mul_left_cancel₀ hp.ne' (h1.trans (mul_one _).symm))
  refine ⟨fun hc => ?_, fun hc => ?_⟩
  · exact key (gauss_diag_inj (fun _ => pow_pos hp 2) (fun _ => hp) ((C215_isotropic_normal_partial h hm hS hg).unique vecIs_unique hc))
  · have := expLaw_prob (multivariateGaussian (WithLp.toLp 2 m) (diagonal fun _ : Fin n => v))
    have := expLaw_prob (multivariateGaussian (WithLp.toLp 2 m) (diagonal fun _ : Fin n => v ^ 2))
    exact key (expGauss_diag_inj (fun _ => pow_pos hp 2) (fun _ => hp) ((C215_isotropic_lognormal_partial h hm hS hg).unique arrIs_unique hc))
end

/-! ### non-vacuity -/
section
attribute [local instance] exactFP exactFP_exact exactLapack exactLapack_exact

/-- the hypotheses of the C213 theorems are met by the tape source: Gamma of shape 2 and rate 3, and Fréchet of shape 2 -/
example : ∃ (d : Gamma) (e : Frechet), Gamma.new (fin 2) (fin 3) = .ok d ∧ Frechet.new (fin 2) = .ok e ∧
    ¬ IID (Measure.infinitePi fun _ : ℕ => tapeLaw) F64.Is (fun s => d.sample streamSrc s) (Law (gammaPDFReal 2 3)) ∧
    IID (Measure.infinitePi fun _ : ℕ => tapeLaw) F64.Is (fun s => e.sample streamSrc s) (Law (weibullPDF 1 2)) ∧
    ¬ IID (Measure.infinitePi fun _ : ℕ => tapeLaw) F64.Is (fun s => e.sample streamSrc s) (Law (frechetPDF 2)) := by
  have h2 : (0 : F64) < fin 2 := fin_lt_fin.2 (by norm_num)
  have h3 : (0 : F64) < fin 3 := fin_lt_fin.2 (by norm_num)
  have h4 : Gamma.new (fin 2) (fin 3) = _ := Gamma.new_ok.2 ⟨h2, h3, rfl⟩
  have h5 : Frechet.new (fin 2) = _ := Frechet.new_ok.2 ⟨h2, rfl⟩
  exact ⟨_, _, h4, h5, C213_gamma_violated h4 (Is.fin 2) (Is.fin 3) (by norm_num) stream_regenerates,
    C213_frechet_partial h5 (Is.fin 2) _ _ _ stream_regenerates, C213_frechet_violated h5 (Is.fin 2) stream_regenerates⟩

/-- a log-normal and an isotropic normal distribution with variance 4, drawn from a stream of standard normals -/
example : ∃ (d : LogNormal) (e : IsoNormal 3), LogNormal.new (fin 1) (fin 4) = .ok d ∧ IsoNormal.new (fun _ => fin 1) (fin 4) = .ok e ∧
    ¬ IID (Measure.infinitePi fun _ : ℕ => (gaussianReal 0 1).prod (unif 0 1)) F64.Is
      (fun s => d.sample ⟨fun s : ℕ → ℝ × ℝ => (fin (s 0).1, shift s)⟩ s) (Law (logNormalPDF 1 4)) ∧
    ¬ IID (Measure.infinitePi fun _ : ℕ => (gaussianReal 0 1).prod (unif 0 1)) VecIs
      (total fun s => e.sample ⟨fun s : ℕ → ℝ × ℝ => (fin (s 0).1, shift s)⟩ s)
      (multivariateGaussian (WithLp.toLp 2 fun _ => 1) (diagonal fun _ => 4)) := by
  have h4 : (0 : F64) < fin 4 := fin_lt_fin.2 (by norm_num)
  have h5 : LogNormal.new (fin 1) (fin 4) = _ := LogNormal.new_ok.2 ⟨h4, rfl⟩
  have h6 : IsoNormal.new (n := 3) (fun _ => fin 1) (fin 4) = _ := IsoNormal.new_ok.2 ⟨h4, rfl⟩
  exact ⟨_, _, h5, h6, C217_lognormal_violated h5 (Is.fin 1) (Is.fin 4) stream_both.1,
    (C215_isotropic_violated (by norm_num) h6 (fun _ => Is.fin 1) (Is.fin 4) stream_both.1 (by norm_num)).1⟩

/-- accepted parameters for which no sample can be drawn -/
example : ∃ d e, Pareto.new (fin (-1)) (fin 2) = .ok d ∧ StudentT.new (fin (-2)) = .ok e ∧
    ¬ IID (Measure.infinitePi fun _ : ℕ => tapeLaw) F64.Is (fun s => d.sample streamSrc s) (Law (gammaPDFReal 2 3)) ∧
    ¬ IID (Measure.infinitePi fun _ : ℕ => tapeLaw) F64.Is (fun s => e.sample streamSrc s) (Law (gammaPDFReal 2 3)) := by
  have := (gamma_density (a := 2) (r := 3) (by norm_num) (by norm_num)).2.isProbability
  have := stream_regenerates.prob
  obtain ⟨d, h1, h2⟩ := C213_pareto_violated (Is.fin (-1)) (by norm_num) (b := fin 2) (fin_lt_fin.2 (by norm_num))
  obtain ⟨e, h3, h4⟩ := C213_student_violated (Is.fin (-2)) (by norm_num)
  exact ⟨d, e, h1, h3, h2 _ _ _ _, h4 _ _ _ _⟩
end
end Rstat
