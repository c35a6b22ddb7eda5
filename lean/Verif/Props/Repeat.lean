import Verif.Lemmas.Repeat
import Verif.Props.Samplers
import Verif.Props.Dist.Degenerate

/-! Properties C212-C213: successive samples are independent with the law of the distribution, for every random source whose elementary
draws have the documented laws and leave an independent state of the same law (`Spec/Repeat.lean`). `Spec.stream_regenerates`
(Lemmas/Repeat.lean) shows that such a source exists. -/
set_option linter.unusedSectionVars false
namespace Rstat
open F64 Consts Spec MeasureTheory ProbabilityTheory Set

/-- a delegated draw, repeated -/
theorem sample_renews {σ : Type} [MeasurableSpace σ] {g : RandSrc σ} {P : Measure σ} (hf : Regenerates g P) {c : RealSampler} {μ : Measure ℝ}
    (hd : Documented c μ) (ha : c.Accepts) : Renews P F64.Is (fun s => g.sample c s) μ := by
  have : (fun s => g.sample c s) = total (g.draw c) := by
    funext s; simp only [RandSrc.sample, if_pos ha, total]
  rw [this]; exact hf.real c μ hd

theorem sample_iid {σ : Type} [MeasurableSpace σ] {g : RandSrc σ} {P : Measure σ} (hf : Regenerates g P) {c : RealSampler} {μ : Measure ℝ}
    (hd : Documented c μ) (ha : c.Accepts) : IID P F64.Is (fun s => g.sample c s) μ := by
  have := hf.prob
  have := hd.prob
  exact (sample_renews hf hd ha).iid

section
variable [FP] [FP.Exact]

/-- C212: successive exponential samples are independent with the exponential law of the given rate. -/
theorem C212_exponential {a : F64} {r : ℝ} {d : Exponential} (h : Exponential.new a = .ok d) (ha : a.Is r) :
    SamplesIID F64.Is (fun _ g s => d.sample g s) (Law (expPDF r)) := by
  obtain ⟨h0, rfl⟩ := Exponential.new_ok.1 h
  have hr : 0 < r := pos_of_lt h0 ha
  intro σ _ g P hf
  rw [law_exp]
  exact sample_iid hf (.exp ha hr) (Is.zero.le_iff ha |>.2 hr.le)

/-- C212: Cauchy -/
theorem C212_cauchy {a b : F64} {m s : ℝ} {d : Cauchy} (h : Cauchy.new a b = .ok d) (ha : a.Is m) (hb : b.Is s) :
    SamplesIID F64.Is (fun _ g s => d.sample g s) (Law (cauchyDensity m s)) := by
  obtain ⟨h0, rfl⟩ := Cauchy.new_ok.1 h
  have hs : 0 < s := pos_of_lt h0 hb
  lift s to NNReal using hs.le
  intro σ _ g P hf
  rw [← cauchy_law (by exact_mod_cast hs)]
  exact sample_iid hf (.cauchy ha hb (by exact_mod_cast hs)) h0

/-- C212: Weibull -/
theorem C212_weibull {a b : F64} {l k : ℝ} {d : Weibull} (h : Weibull.new a b = .ok d) (ha : a.Is l) (hb : b.Is k) :
    SamplesIID F64.Is (fun _ g s => d.sample g s) (Law (weibullPDF l k)) := by
  obtain ⟨h0, h1, rfl⟩ := Weibull.new_ok.1 h
  have hl : 0 < l := pos_of_lt h0 ha
  have hk : 0 < k := pos_of_lt h1 hb
  intro σ _ g P hf
  rw [← weibull_law hl hk]
  exact sample_iid hf (.weibull ha hb hl hk) ⟨h0, h1⟩

/-- C212: triangular -/
theorem C212_triangular {a p q : F64} {x u v : ℝ} {d : Triangular} (h : Triangular.new a p q = .ok d) (ha : a.Is x) (hp : p.Is u)
    (hq : q.Is v) : SamplesIID F64.Is (fun _ g s => d.sample g s) (Law (triangularPDF x (x + u + v) (x + u))) := by
  obtain ⟨h0, h1, rfl⟩ := Triangular.new_ok.1 h
  have hu : 0 < u := pos_of_lt h0 hp
  have hv : 0 < v := pos_of_lt h1 hq
  intro σ _ g P hf
  rw [← triangular_law (by linarith) (by linarith)]
  have hc : (Triangular.c ⟨a, p, q⟩).Is (x + u) := ha.add hp
  have hb : (Triangular.b ⟨a, p, q⟩).Is (x + u + v) := hc.add hq
  exact sample_iid hf (.triangular ha hb hc (by linarith) (by linarith) (by linarith))
    ⟨(ha.le_iff hb).2 (by linarith), (ha.le_iff hc).2 (by linarith), (hc.le_iff hb).2 (by linarith)⟩

/-- C212: continuous uniform -/
theorem C212_uniform {a b : F64} {x w : ℝ} {d : UniformF} (h : UniformF.new a b = .ok d) (ha : a.Is x) (hb : b.Is w) :
    SamplesIID F64.Is (fun _ g s => d.sample g s) (Law (uniformPDF x (x + w))) := by
  obtain ⟨h0, rfl⟩ := UniformF.new_ok.1 h
  have hw : 0 < w := pos_of_lt h0 hb
  intro σ _ g P hf
  rw [← unif_law (by linarith)]
  have hub := ha.add hb
  exact sample_iid hf (.uniformIncl ha hub (by linarith)) ((ha.le_iff hub).2 (by linarith))

/-- C213: Pareto, for a positive scale (the constructor accepts others, see C192) -/
theorem C213_pareto_partial {a b : F64} {m α : ℝ} {d : Pareto} (h : Pareto.new a b = .ok d) (ha : a.Is m) (hb : b.Is α) (hm : 0 < m) :
    SamplesIID F64.Is (fun _ g s => d.sample g s) (Law (paretoPDF m α)) := by
  obtain ⟨h0, rfl⟩ := Pareto.new_ok.1 h
  have hα : 0 < α := pos_of_lt h0 hb
  intro σ _ g P hf
  rw [← pareto_law]
  exact sample_iid hf (.pareto ha hb hm hα) ⟨lt_of_pos hm ha, h0⟩

/-- C213: Gamma: successive samples are independent, with the Gamma law of rate `1/β` (see C193) -/
theorem C213_gamma_partial {a b : F64} {α β : ℝ} {d : Gamma} (h : Gamma.new a b = .ok d) (ha : a.Is α) (hb : b.Is β) :
    SamplesIID F64.Is (fun _ g s => d.sample g s) (Law (gammaPDFReal α (1 / β))) := by
  obtain ⟨h0, h1, rfl⟩ := Gamma.new_ok.1 h
  intro σ _ g P hf
  exact sample_iid hf (.gamma ha hb (pos_of_lt h0 ha) (pos_of_lt h1 hb)) ⟨h0, h1⟩

/-- C212: Beta -/
theorem C212_beta {a b : F64} {α β : ℝ} {d : BetaDist} (h : BetaDist.new a b = .ok d) (ha : a.Is α) (hb : b.Is β) :
    SamplesIID F64.Is (fun _ g s => d.sample g s) (Law (betaPDFReal α β)) := by
  obtain ⟨h0, h1, rfl⟩ := BetaDist.new_ok.1 h
  intro σ _ g P hf
  exact sample_iid hf (.beta ha hb (pos_of_lt h0 ha) (pos_of_lt h1 hb)) ⟨h0, h1⟩

/-- C212: chi-squared -/
theorem C212_chisq {k : ℕ} {d : ChiSq} (h : ChiSq.new k = .ok d) :
    SamplesIID F64.Is (fun _ g s => d.sample g s) (Law (gammaPDFReal (k / 2) (1 / 2))) := by
  obtain ⟨h0, rfl⟩ := ChiSq.new_ok.1 h
  have hk : (ChiSq.kf ⟨k⟩).Is (k : ℝ) := Is.ofNat k
  have h0' : (0:ℝ) < k := by exact_mod_cast h0
  intro σ _ g P hf
  exact sample_iid hf (.chiSquared hk h0') (lt_of_pos h0' hk)

/-- C212: F -/
theorem C212_fdist {m n : ℕ} {d : FDist} (h : FDist.new m n = .ok d) :
    SamplesIID F64.Is (fun _ g s => d.sample g s) (Law (fPDF m n)) := by
  obtain ⟨h0, h1, rfl⟩ := FDist.new_ok.1 h
  have hm : (FDist.f1 ⟨m, n⟩).Is (m : ℝ) := Is.ofNat m
  have hn : (FDist.f2 ⟨m, n⟩).Is (n : ℝ) := Is.ofNat n
  have h0' : (0:ℝ) < m := by exact_mod_cast h0
  have h1' : (0:ℝ) < n := by exact_mod_cast h1
  intro σ _ g P hf
  rw [← fisher_law h0' h1']
  exact sample_iid hf (.fisherF hm hn h0' h1') ⟨lt_of_pos h0' hm, lt_of_pos h1' hn⟩

/-- C213: Student, for a positive number of degrees of freedom (the constructor accepts others, see C195) -/
theorem C213_student_partial {a : F64} {n : ℝ} {d : StudentT} (h : StudentT.new a = .ok d) (ha : a.Is n) (hn : 0 < n) :
    SamplesIID F64.Is (fun _ g s => d.sample g s) (Law (studentPDF n)) := by
  obtain rfl := StudentT.new_ok.1 h
  intro σ _ g P hf
  rw [← student_law hn]
  exact sample_iid hf (.studentT ha hn) (lt_of_pos hn ha)

/-- C212: binomial -/
theorem C212_binomial {n : ℕ} {P : Probability} {p : ℝ} {d : Binomial} (h : Binomial.new n P = .ok d) (hp : P.val.Is p) :
    SamplesIID Eq (fun _ g s => d.sample g s) (massMeasure (binPMF n p)) := by
  obtain ⟨⟨h0, h1⟩, rfl⟩ := Binomial.new_ok.1 h
  have p0 := (Is.zero.le_iff hp).1 h0
  have p1 := (hp.le_iff Is.one).1 h1
  intro σ _ g Q hf
  have e : (fun s => Binomial.sample g s ⟨n, P, P.not⟩) = total (g.drawNat (.binomial n P.val)) := by
    funext s; unfold Binomial.sample RandSrc.sampleNat; rw [if_pos ⟨h0, h1⟩]; rfl
  have := hf.prob
  have := massMeasure_prob (bin_pmf p0 p1 n)
  show IID Q Eq (fun s => Binomial.sample g s ⟨n, P, P.not⟩) _
  rw [e]
  exact (hf.nat _ _ (.binomial hp p0 p1)).iid

/-- C213: geometric, for a positive success probability (the constructor accepts 0, see C201) -/
theorem C213_geometric_partial {a : F64} {p : ℝ} {d : Geometric} (h : Geometric.new a = .ok d) (hp : a.Is p) (p0 : 0 < p) :
    SamplesIID Eq (fun _ g s => d.sample g s) (massMeasure (geomPMF p)) := by
  obtain ⟨⟨h0, h1⟩, rfl⟩ := Geometric.new_ok.1 h
  have p1 := (hp.le_iff Is.one).1 h1
  intro σ _ g Q hf
  have e : (fun s => Geometric.sample g s ⟨⟨a⟩, ⟨1 - a⟩⟩) = total (g.drawNat (.geometric a)) := by
    funext s; unfold Geometric.sample RandSrc.sampleNat; rw [if_pos ⟨h0, h1⟩]; rfl
  have := hf.prob
  have := massMeasure_prob (geom_pmf p0 p1)
  show IID Q Eq (fun s => Geometric.sample g s ⟨⟨a⟩, ⟨1 - a⟩⟩) _
  rw [e]
  exact (hf.nat _ _ (.geometric hp p0 p1)).iid

/-- C212: Bernoulli -/
theorem C212_bernoulli {a : F64} {p : ℝ} {d : Bernoulli} (h : Bernoulli.new a = .ok d) (hp : a.Is p) :
    SamplesIID Eq (fun _ g s => d.sample g s) (massMeasure (bernPMF p)) := by
  obtain ⟨⟨h0, h1⟩, rfl⟩ := Bernoulli.new_ok.1 h
  have p0 := (Is.zero.le_iff hp).1 h0
  have p1 := (hp.le_iff Is.one).1 h1
  intro σ _ g Q hf
  have e : (fun s => Bernoulli.sample g s ⟨⟨a⟩, ⟨1 - a⟩, a * (1 - a)⟩) = total (g.genBool a) := by
    funext s; unfold Bernoulli.sample; rw [if_pos ⟨h0, h1⟩]; rfl
  have := hf.prob
  have := massMeasure_prob (bern_pmf p0 p1)
  show IID Q Eq (fun s => Bernoulli.sample g s ⟨⟨a⟩, ⟨1 - a⟩, a * (1 - a)⟩) _
  rw [e]
  exact (hf.bool a p hp p0 p1).iid

/-- C213: discrete uniform, when the upper end fits (see C199) -/
theorem C213_uniform_int_partial {pr : Profile} {lb : ℤ} {w : ℕ} {d : UniformI} (hf : UniformI.Fits lb w)
    (h : UniformI.new pr lb w = .ok (.ok d)) :
    SamplesIID Eq (fun _ g s => d.sample g s pr) (massMeasure (uniformPMF lb (lb + w))) := by
  obtain ⟨hw, rfl⟩ := (UniformI.new_ok hf).1 h
  obtain ⟨h1, h2, h3⟩ := UniformI.Fits.bounds hf
  have hub : i64chk pr (lb + (w : ℤ)) = .ok (lb + (w : ℤ)) := i64chk_ok ⟨by omega, h2⟩
  intro σ _ g Q hf
  have e : (fun s => UniformI.sample g s pr ⟨lb, w, 1 / F64.ofInt ((w : ℤ) + 1)⟩) = total (g.drawInt lb (lb + w)) := by
    funext s; unfold UniformI.sample; simp only [hub]; rw [if_pos (by omega)]; rfl
  have := hf.prob
  have := massMeasure_prob (uniformD_pmf lb w)
  show IID Q Eq (fun s => UniformI.sample g s pr ⟨lb, w, 1 / F64.ofInt ((w : ℤ) + 1)⟩) _
  rw [e]
  exact (hf.int _ _ (by omega)).iid

/-- C212: Poisson; all the mass from `u64::MAX` on sits at `u64::MAX` -/
theorem C212_poisson {a : F64} {l : ℝ} {d : Poisson} (h : Poisson.new a = .ok d) (ha : a.Is l) :
    SamplesIID Eq (fun _ g s => d.sample g s) ((massMeasure (poisPMF l)).map fun k => Min.min k (2 ^ 64 - 1)) := by
  obtain ⟨h0, rfl⟩ := Poisson.new_ok.1 h
  have hl : 0 < l := pos_of_lt h0 ha
  lift l to NNReal using hl.le
  have hl' : 0 < l := by exact_mod_cast hl
  intro σ _ g P hf
  have hacc : (RealSampler.poisson a).Accepts := h0
  have := hf.prob
  have hd : Documented (.poisson a) ((poissonMeasure l).map Nat.cast) := .poisson ha hl'
  have := hd.prob
  have em : massMeasure (poisPMF l) = poissonMeasure l := by
    refine (eq_massMeasure fun k => ?_).symm
    rw [poissonMeasure_singleton]
    unfold poisPMF
    congr 1
    ring
  have hfl : Measurable fun x : ℝ => Min.min ⌊x⌋₊ (2 ^ 64 - 1) := (Nat.measurable_floor (R := ℝ)).min measurable_const
  have e : (massMeasure (poisPMF l)).map (fun k => Min.min k (2 ^ 64 - 1)) =
      ((poissonMeasure l).map Nat.cast).map fun x : ℝ => Min.min ⌊x⌋₊ (2 ^ 64 - 1) := by
    rw [em, Measure.map_map hfl (by fun_prop)]
    congr 1
    funext k; simp
  rw [e]
  have : IsProbabilityMeasure (((poissonMeasure l).map Nat.cast).map fun x : ℝ => Min.min ⌊x⌋₊ (2 ^ 64 - 1)) :=
    Measure.isProbabilityMeasure_map hfl.aemeasurable
  refine Renews.iid ((sample_renews hf hd hacc).map (R' := Eq) hfl (t := F64.toU64) (A := univ) MeasurableSet.univ (by simp)
    (fun x u _ hx => toU64_is hx) (fun s x hx => ?_) fun s => ?_)
  · show (Poisson.sample g s ⟨a⟩).1 = _
    unfold Poisson.sample
    revert hx
    show (g.sample (.poisson a) s).1 = _ → _
    rcases g.sample (.poisson a) s with ⟨_ | _, _⟩
    · intro hx; cases hx
    · intro hx; cases hx; rfl
  · show (Poisson.sample g s ⟨a⟩).2 = (g.sample (.poisson a) s).2
    unfold Poisson.sample
    rcases g.sample (.poisson a) s with ⟨_ | _, _⟩ <;> rfl

theorem std_uniform_renews {σ : Type} [MeasurableSpace σ] {g : RandSrc σ} {P : Measure σ} (hf : Regenerates g P) :
    Renews P F64.Is (fun s => stdUniform g s) (unif 0 1) := by
  have hub : ((0 : F64) + 1).Is 1 := (Is.zero.add Is.one).congr (zero_add 1)
  exact sample_renews hf (.uniformIncl Is.zero hub one_pos) ((Is.zero.le_iff hub).2 one_pos.le)

/-- C212: Kumaraswamy -/
theorem C212_kumaraswamy {a b : F64} {p q : ℝ} {d : Kumaraswamy} (h : Kumaraswamy.new a b = .ok d) (ha : a.Is p) (hb : b.Is q) :
    SamplesIID F64.Is (fun _ g s => d.sample g s) (Law (kumaraswamyPDF p q)) := by
  have hh := h
  obtain ⟨h0, h1, rfl⟩ := Kumaraswamy.new_ok.1 h
  have hp : 0 < p := pos_of_lt h0 ha
  have hq : 0 < q := pos_of_lt h1 hb
  obtain ⟨hF, hD⟩ := kuma_density hp hq
  intro σ _ g P hf
  have := hf.prob
  have := unif_prob (zero_lt_one (α := ℝ))
  have hT : Measurable fun r : ℝ => (1 - (1 - r) ^ (1 / q)) ^ (1 / p) := by fun_prop
  have key : ∀ (x : F64) (u : ℝ), u ∈ Ioo (0:ℝ) 1 → x.Is u → (Kumaraswamy.sampleFrom ⟨a, b⟩ x).Is ((1 - (1 - u) ^ (1 / q)) ^ (1 / p)) := by
    rintro x u ⟨hr, hr1⟩ hx
    have h1r : 0 < 1 - u := by linarith
    have h2 : 0 < 1 - (1 - u) ^ (1 / q) := sub_pos.2 (Real.rpow_lt_one h1r.le (by linarith) (by positivity))
    have h3 : 0 < (1 - u) ^ (1 / q) := by positivity
    unfold Kumaraswamy.sampleFrom
    fev
  rw [← unif_transform one_pos hT hF hD fun u hu => ?_]
  · have : IsProbabilityMeasure ((unif 0 1).map fun r : ℝ => (1 - (1 - r) ^ (1 / q)) ^ (1 / p)) :=
      Measure.isProbabilityMeasure_map hT.aemeasurable
    refine Renews.iid ((std_uniform_renews hf).map hT (t := Kumaraswamy.sampleFrom ⟨a, b⟩) (A := Ioo 0 1) measurableSet_Ioo ?_ key
      (fun s x hx => ?_) fun s => ?_)
    · rw [unif_std, Measure.restrict_congr_set Ioo_ae_eq_Icc.symm, Measure.restrict_apply measurableSet_Ioo.compl]; simp
    · show (Kumaraswamy.sample g s ⟨a, b⟩).1 = _
      unfold Kumaraswamy.sample
      revert hx
      show (stdUniform g s).1 = _ → _
      rcases stdUniform g s with ⟨_ | _, _⟩
      · intro hx; cases hx
      · intro hx; cases hx; rfl
    · show (Kumaraswamy.sample g s ⟨a, b⟩).2 = (stdUniform g s).2
      unfold Kumaraswamy.sample
      rcases stdUniform g s with ⟨_ | _, _⟩ <;> rfl
  · obtain ⟨x, hx, -, -, hc, -⟩ := (C72_kumaraswamy hh ha hb).2.2.2.2.2.2.2.2.2.1 (fin u) u (Is.fin u) hu.1 hu.2
    rw [(key (fin u) u hu (Is.fin u)).eq hx, hc]; ring

/-- C212: Laplace -/
theorem C212_laplace {a b : F64} {m s : ℝ} {d : Laplace} (h : Laplace.new a b = .ok d) (ha : a.Is m) (hb : b.Is s) :
    SamplesIID F64.Is (fun _ g s => d.sample g s) (Law (laplacePDF m s)) := by
  have hx := h
  obtain ⟨h0, rfl⟩ := Laplace.new_ok.1 h
  have hs : 0 < s := pos_of_lt h0 hb
  obtain ⟨hF, hD⟩ := laplace_density m hs
  intro σ _ g P hf
  have hlt : (-1 / 2 : ℝ) < 1 / 2 := by norm_num
  have := hf.prob
  have := unif_prob hlt
  have hu : Renews P F64.Is (fun s => g.sample (.uniform (F64.fin (-1 / 2)) (F64.fin (1 / 2))) s) (unif (-1 / 2) (1 / 2)) :=
    sample_renews hf (.uniform (Is.fin _) (Is.fin _) hlt) (fin_lt_fin.2 hlt)
  have hT : Measurable fun r : ℝ => m - s * (if r < 0 then -1 else 1) * Real.log (1 - 2 * |r|) := by
    have : Measurable fun r : ℝ => if r < 0 then (-1:ℝ) else 1 :=
      Measurable.ite measurableSet_Iio measurable_const measurable_const
    have : Measurable fun r : ℝ => |r| := continuous_abs.measurable
    fun_prop
  have key : ∀ (x : F64) (u : ℝ), u ∈ Ioo (-1 / 2 : ℝ) (1 / 2) → x.Is u →
      (Laplace.sampleFrom ⟨a, b⟩ x).Is (m - s * (if u < 0 then -1 else 1) * Real.log (1 - 2 * |u|)) := fun x u hu hx => by
    have hln : 0 < 1 - 2 * |u| := by
      rcases abs_cases u with ⟨h, _⟩ | ⟨h, _⟩ <;> rw [h] <;> linarith [hu.1, hu.2]
    rcases signum_is hx with hσ | ⟨rfl, hσ⟩
    · unfold Laplace.sampleFrom; fev
    · refine Is.congr (r := m - s * -1 * Real.log (1 - 2 * |(0:ℝ)|)) (by unfold Laplace.sampleFrom; fev) (by simp)
  rw [← unif_transform hlt hT hF hD fun u hu => ?_]
  · have : IsProbabilityMeasure ((unif (-1 / 2) (1 / 2)).map fun r : ℝ => m - s * (if r < 0 then -1 else 1) * Real.log (1 - 2 * |r|)) :=
      Measure.isProbabilityMeasure_map hT.aemeasurable
    refine Renews.iid (hu.map hT (t := Laplace.sampleFrom ⟨a, b⟩) (A := Ioo (-1 / 2) (1 / 2)) measurableSet_Ioo ?_ key
      (fun s x hx => ?_) fun s => ?_)
    · rw [unif_apply]
      have : volume (Icc (-1 / 2) (1 / 2) ∩ (Ioo (-1 / 2) (1 / 2))ᶜ : Set ℝ) = 0 := by
        refine measure_mono_null (t := {-1 / 2, 1 / 2}) (fun x hx => ?_) ((Set.toFinite _).measure_zero _)
        obtain ⟨⟨a1, a2⟩, a3⟩ := hx
        rcases eq_or_lt_of_le a1 with e | e
        · exact Or.inl e.symm
        · exact Or.inr (le_antisymm a2 (not_lt.1 fun h => a3 ⟨e, h⟩))
      rw [this, mul_zero]
    · show (Laplace.sample g s ⟨a, b⟩).1 = _
      unfold Laplace.sample
      revert hx
      show (g.sample (.uniform (F64.fin (-1 / 2)) (F64.fin (1 / 2))) s).1 = _ → _
      rcases g.sample (.uniform (F64.fin (-1 / 2)) (F64.fin (1 / 2))) s with ⟨_ | _, _⟩
      · intro hx; cases hx
      · intro hx; cases hx; rfl
    · show (Laplace.sample g s ⟨a, b⟩).2 = (g.sample (.uniform (F64.fin (-1 / 2)) (F64.fin (1 / 2))) s).2
      unfold Laplace.sample
      rcases g.sample (.uniform (F64.fin (-1 / 2)) (F64.fin (1 / 2))) s with ⟨_ | _, _⟩ <;> rfl
  · obtain ⟨x, h1, h2⟩ := (C65_laplace_rest_partial hx ha hb).2.2.2.2.2.2.2.2.2 (fin u) u (Is.fin u)
      (by linarith [hu.1]) hu.2
    rw [(key (fin u) u hu (Is.fin u)).eq h1, h2]; ring
end

/-- C212: the degenerate distribution: every call returns the point, whatever the source -/
theorem C212_degenerate {a : F64} {k : ℝ} {d : DegenerateF} (h : d = DegenerateF.new a) (ha : a.Is k) :
    SamplesIID F64.Is (fun _ _ s => total d.sample s) (Measure.dirac k) := by
  subst h
  intro σ _ g P hf
  have := hf.prob
  refine Renews.iid ⟨fun _ => k, id, measurable_const, measurable_id, Filter.Eventually.of_forall fun s => ⟨rfl, a, rfl, ha⟩, ?_⟩
  rw [Measure.dirac_prod]; rfl

section
attribute [local instance] exactFP exactFP_exact
/-- with the stream source, three calls of `sample` on `Exponential::new(3)` have the product law, and so have binomial samples -/
example : (∃ d, Exponential.new (fin 3) = .ok d ∧
      ∃ Y : (ℕ → Tape) → Fin 3 → ℝ, Measurable Y ∧ (Measure.infinitePi fun _ : ℕ => tapeLaw).map Y = Measure.pi fun _ => Law (expPDF 3)) ∧
    (∃ d, Binomial.new 5 ⟨fin (1/3)⟩ = .ok d ∧ SamplesIID Eq (fun _ g s => d.sample g s) (massMeasure (binPMF 5 (1/3)))) := by
  have h : Exponential.new (fin 3) = .ok ⟨fin 3⟩ := Exponential.new_ok.2 ⟨fin_lt_fin.2 (by norm_num), rfl⟩
  have h3 : Binomial.new 5 ⟨fin (1/3)⟩ = .ok ⟨5, ⟨fin (1/3)⟩, Probability.not ⟨fin (1/3)⟩⟩ :=
    Binomial.new_ok.2 ⟨⟨fin_le_fin.2 (by norm_num), fin_le_fin.2 (by norm_num)⟩, rfl⟩
  obtain ⟨Y, hY, -, hm⟩ := C212_exponential h (Is.fin 3) _ _ _ stream_regenerates 3
  exact ⟨⟨_, h, Y, hY, hm⟩, _, h3, C212_binomial h3 (Is.fin _)⟩
end
end Rstat
