import Verif.Lemmas.Samplers2
import Verif.Props.Dist.Exponential
import Verif.Props.Dist.Cauchy
import Verif.Props.Dist.Pareto
import Verif.Props.Dist.Weibull
import Verif.Props.Dist.Triangular
import Verif.Props.Dist.Uniform
import Verif.Props.Dist.Gamma
import Verif.Props.Dist.Beta
import Verif.Props.Dist.Chi
import Verif.Props.Dist.FDist
import Verif.Props.Dist.StudentT
import Verif.Props.Dist.Poisson
import Verif.Props.Dist.Binomial
import Verif.Props.Dist.Geometric
import Verif.Props.Dist.Bernoulli
import Verif.Props.Dist.Frechet
import Verif.Props.Dist.Kumaraswamy
import Verif.Props.Dist.Laplace
import Mathlib.MeasureTheory.Function.Floor

/-! Properties C191-C201: `sample` follows the law of the distribution, for every random source whose elementary draws have the laws
that `rand` 0.8 and `rand_distr` 0.4 document (`Spec/RandDistr.lean`). `tape_faithful` (Lemmas/Samplers2.lean) shows that such a source
exists. -/
set_option linter.unusedSectionVars false
namespace Rstat
open F64 Consts Spec MeasureTheory ProbabilityTheory Set

/-- a delegated draw follows its documented law -/
theorem sample_follows {σ : Type} [MeasurableSpace σ] {g : RandSrc σ} {P : Measure σ} (hf : Faithful g P) {c : RealSampler} {μ : Measure ℝ}
    (hd : Documented c μ) (ha : c.Accepts) : Follows P (fun s => (g.sample c s).1) μ := by
  obtain ⟨Y, hY, h, e⟩ := hf.real c μ hd
  refine ⟨Y, hY, Filter.Eventually.of_forall fun s => ⟨_, ?_, h s⟩, e⟩
  simp only [RandSrc.sample, if_pos ha]

theorem law_null {f F : ℝ → ℝ} (h : IsDensityOf f F) {A : Set ℝ} (hA : MeasurableSet A) (h0 : ∀ x ∈ A, f x = 0) : Law f A = 0 := by
  unfold Law
  rw [withDensity_apply _ hA, setLIntegral_congr_fun hA (g := fun _ => 0) fun x hx => by simp only [h0 x hx, ENNReal.ofReal_zero]]
  simp

section
variable [FP] [FP.Exact]

/-- C191: an exponential sample has the exponential law of the given rate. -/
theorem C191_exponential_sample {a : F64} {r : ℝ} {d : Exponential} (h : Exponential.new a = .ok d) (ha : a.Is r) :
    SampleFollows (fun _ g s => d.sample g s) (Law (expPDF r)) := by
  obtain ⟨h0, rfl⟩ := Exponential.new_ok.1 h
  have hr : 0 < r := pos_of_lt h0 ha
  intro σ _ g P hf
  rw [law_exp]
  exact sample_follows hf (.exp ha hr) (Is.zero.le_iff ha |>.2 hr.le)

/-- C191: a Cauchy sample has the Cauchy law of the given location and scale. -/
theorem C191_cauchy_sample {a b : F64} {m s : ℝ} {d : Cauchy} (h : Cauchy.new a b = .ok d) (ha : a.Is m) (hb : b.Is s) :
    SampleFollows (fun _ g s => d.sample g s) (Law (cauchyDensity m s)) := by
  obtain ⟨h0, rfl⟩ := Cauchy.new_ok.1 h
  have hs : 0 < s := pos_of_lt h0 hb
  lift s to NNReal using hs.le
  intro σ _ g P hf
  rw [← cauchy_law (by exact_mod_cast hs)]
  exact sample_follows hf (.cauchy ha hb (by exact_mod_cast hs)) h0

/-- C191: a Weibull sample has the Weibull law of the given scale and shape. -/
theorem C191_weibull_sample {a b : F64} {l k : ℝ} {d : Weibull} (h : Weibull.new a b = .ok d) (ha : a.Is l) (hb : b.Is k) :
    SampleFollows (fun _ g s => d.sample g s) (Law (weibullPDF l k)) := by
  obtain ⟨h0, h1, rfl⟩ := Weibull.new_ok.1 h
  have hl : 0 < l := pos_of_lt h0 ha
  have hk : 0 < k := pos_of_lt h1 hb
  intro σ _ g P hf
  rw [← weibull_law hl hk]
  exact sample_follows hf (.weibull ha hb hl hk) ⟨h0, h1⟩

/-- C191: a triangular sample has the triangular law on `[a, a + a2c + c2b]` with mode `a + a2c`. -/
theorem C191_triangular_sample {a p q : F64} {x u v : ℝ} {d : Triangular} (h : Triangular.new a p q = .ok d) (ha : a.Is x) (hp : p.Is u)
    (hq : q.Is v) : SampleFollows (fun _ g s => d.sample g s) (Law (triangularPDF x (x + u + v) (x + u))) := by
  obtain ⟨h0, h1, rfl⟩ := Triangular.new_ok.1 h
  have hu : 0 < u := pos_of_lt h0 hp
  have hv : 0 < v := pos_of_lt h1 hq
  intro σ _ g P hf
  rw [← triangular_law (by linarith) (by linarith)]
  have hc : (Triangular.c ⟨a, p, q⟩).Is (x + u) := ha.add hp
  have hb : (Triangular.b ⟨a, p, q⟩).Is (x + u + v) := hc.add hq
  exact sample_follows hf (.triangular ha hb hc (by linarith) (by linarith) (by linarith))
    ⟨(ha.le_iff hb).2 (by linarith), (ha.le_iff hc).2 (by linarith), (hc.le_iff hb).2 (by linarith)⟩

/-- C191: a sample of the continuous uniform distribution is uniform on `[lb, lb + width]`. -/
theorem C191_uniform_sample {a b : F64} {x w : ℝ} {d : UniformF} (h : UniformF.new a b = .ok d) (ha : a.Is x) (hb : b.Is w) :
    SampleFollows (fun _ g s => d.sample g s) (Law (uniformPDF x (x + w))) := by
  obtain ⟨h0, rfl⟩ := UniformF.new_ok.1 h
  have hw : 0 < w := pos_of_lt h0 hb
  intro σ _ g P hf
  rw [← unif_law (by linarith)]
  have hub := ha.add hb
  exact sample_follows hf (.uniformIncl ha hub (by linarith)) ((ha.le_iff hub).2 (by linarith))

/-- C192: a Pareto sample has the Pareto law of the given scale and shape when the scale is positive
(for the rest see `C192_pareto_sample_violated`). -/
theorem C192_pareto_sample_partial {a b : F64} {m α : ℝ} {d : Pareto} (h : Pareto.new a b = .ok d) (ha : a.Is m) (hb : b.Is α) (hm : 0 < m) :
    SampleFollows (fun _ g s => d.sample g s) (Law (paretoPDF m α)) := by
  obtain ⟨h0, rfl⟩ := Pareto.new_ok.1 h
  have hα : 0 < α := pos_of_lt h0 hb
  intro σ _ g P hf
  rw [← pareto_law]
  exact sample_follows hf (.pareto ha hb hm hα) ⟨lt_of_pos hm ha, h0⟩

/-- C192 (violated): every non-positive scale is accepted by the constructor, and then every call to `sample` panics. -/
theorem C192_pareto_sample_violated {a b : F64} {m : ℝ} (ha : a.Is m) (hm : m ≤ 0) (hb : 0 < b) :
    ∃ d, Pareto.new a b = .ok d ∧ ∀ (σ : Type) (g : RandSrc σ) (s : σ), (d.sample g s).1 = .error .unwrap := by
  refine ⟨_, Pareto.new_ok.2 ⟨hb, rfl⟩, fun σ g s => ?_⟩
  unfold Pareto.sample RandSrc.sample
  rw [if_neg fun h => not_lt.2 hm ((Is.zero.lt_iff ha).1 h.1)]

/-- C193 (violated): the rate `β` is handed over as a scale, so a Gamma sample has the Gamma law of rate `1/β`; this is the law of the
distribution's own density only for `β = 1`. -/
theorem C193_gamma_sample_violated {a b : F64} {α β : ℝ} {d : Gamma} (h : Gamma.new a b = .ok d) (ha : a.Is α) (hb : b.Is β) :
    SampleFollows (fun _ g s => d.sample g s) (Law (gammaPDFReal α (1 / β))) ∧
    (SampleFollows (fun _ g s => d.sample g s) (Law (gammaPDFReal α β)) ↔ β = 1) := by
  obtain ⟨h0, h1, rfl⟩ := Gamma.new_ok.1 h
  have hα : 0 < α := pos_of_lt h0 ha
  have hβ : 0 < β := pos_of_lt h1 hb
  have key : SampleFollows (fun _ g s => Gamma.sample g s ⟨a, b⟩) (Law (gammaPDFReal α (1 / β))) := by
    intro σ _ g P hf
    exact sample_follows hf (.gamma ha hb hα hβ) ⟨h0, h1⟩
  refine ⟨key, fun h2 => ?_, fun e => ?_⟩
  · have e := key.unique h2
    have d1 := (gamma_density hα (one_div_pos.2 hβ)).2
    have d2 := (gamma_density hα hβ).2
    have m1 := (gamma_moments hα (one_div_pos.2 hβ)).1.1
    have m2 := (gamma_moments hα hβ).1.1
    have i1 := (integral_law d1 (gamma_measurable _ _) fun x => x).2
    have i2 := (integral_law d2 (gamma_measurable _ _) fun x => x).2
    rw [m1.2] at i1
    rw [m2.2] at i2
    rw [e, i2] at i1
    have : β * β = 1 := by field_simp at i1; linarith
    nlinarith
  · subst e; rw [one_div_one] at key; exact key

/-- C193: with rate 1 a Gamma sample has the law of the distribution. -/
theorem C193_gamma_sample_partial {a b : F64} {α : ℝ} {d : Gamma} (h : Gamma.new a b = .ok d) (ha : a.Is α) (hb : b.Is 1) :
    SampleFollows (fun _ g s => d.sample g s) (Law (gammaPDFReal α 1)) :=
  (C193_gamma_sample_violated h ha hb).2.2 rfl

/-- C194: a Beta sample has the Beta law with the given shapes. -/
theorem C194_beta_sample {a b : F64} {α β : ℝ} {d : BetaDist} (h : BetaDist.new a b = .ok d) (ha : a.Is α) (hb : b.Is β) :
    SampleFollows (fun _ g s => d.sample g s) (Law (betaPDFReal α β)) := by
  obtain ⟨h0, h1, rfl⟩ := BetaDist.new_ok.1 h
  intro σ _ g P hf
  exact sample_follows hf (.beta ha hb (pos_of_lt h0 ha) (pos_of_lt h1 hb)) ⟨h0, h1⟩

/-- C194: a chi-squared sample has the chi-squared law with `k` degrees of freedom, that is the Gamma law of shape `k/2` and rate `1/2`. -/
theorem C194_chisq_sample {k : ℕ} {d : ChiSq} (h : ChiSq.new k = .ok d) :
    SampleFollows (fun _ g s => d.sample g s) (Law (gammaPDFReal (k / 2) (1 / 2))) := by
  obtain ⟨h0, rfl⟩ := ChiSq.new_ok.1 h
  have hk : (ChiSq.kf ⟨k⟩).Is (k : ℝ) := Is.ofNat k
  have h0' : (0:ℝ) < k := by exact_mod_cast h0
  intro σ _ g P hf
  exact sample_follows hf (.chiSquared hk h0') (lt_of_pos h0' hk)

/-- C194: an F sample has Fisher's law with the given degrees of freedom. -/
theorem C194_fdist_sample {m n : ℕ} {d : FDist} (h : FDist.new m n = .ok d) :
    SampleFollows (fun _ g s => d.sample g s) (Law (fPDF m n)) := by
  obtain ⟨h0, h1, rfl⟩ := FDist.new_ok.1 h
  have hm : (FDist.f1 ⟨m, n⟩).Is (m : ℝ) := Is.ofNat m
  have hn : (FDist.f2 ⟨m, n⟩).Is (n : ℝ) := Is.ofNat n
  have h0' : (0:ℝ) < m := by exact_mod_cast h0
  have h1' : (0:ℝ) < n := by exact_mod_cast h1
  intro σ _ g P hf
  rw [← fisher_law h0' h1']
  exact sample_follows hf (.fisherF hm hn h0' h1') ⟨lt_of_pos h0' hm, lt_of_pos h1' hn⟩

/-- C195: a Student sample has Student's law when the number of degrees of freedom is positive. -/
theorem C195_student_sample_partial {a : F64} {n : ℝ} {d : StudentT} (h : StudentT.new a = .ok d) (ha : a.Is n) (hn : 0 < n) :
    SampleFollows (fun _ g s => d.sample g s) (Law (studentPDF n)) := by
  obtain rfl := StudentT.new_ok.1 h
  intro σ _ g P hf
  rw [← student_law hn]
  exact sample_follows hf (.studentT ha hn) (lt_of_pos hn ha)

/-- C195 (violated): the constructor accepts every non-positive number of degrees of freedom, and then every call to `sample` panics. -/
theorem C195_student_sample_violated {a : F64} {n : ℝ} (ha : a.Is n) (hn : n ≤ 0) :
    ∃ d, StudentT.new a = .ok d ∧ ∀ (σ : Type) (g : RandSrc σ) (s : σ), (d.sample g s).1 = .error .unwrap := by
  refine ⟨_, StudentT.new_ok.2 rfl, fun σ g s => ?_⟩
  unfold StudentT.sample RandSrc.sample
  rw [if_neg (show ¬ (RealSampler.studentT a).Accepts from fun h => not_lt.2 hn ((Is.zero.lt_iff ha).1 h))]

/-- C196: a binomial sample has the binomial mass function. -/
theorem C196_binomial_sample {n : ℕ} {P : Probability} {p : ℝ} {d : Binomial} (h : Binomial.new n P = .ok d) (hp : P.val.Is p) :
    SampleFollowsPMF (fun _ g s => d.sample g s) (binPMF n p) univ := by
  obtain ⟨⟨h0, h1⟩, rfl⟩ := Binomial.new_ok.1 h
  have p0 := (Is.zero.le_iff hp).1 h0
  have p1 := (hp.le_iff Is.one).1 h1
  intro σ _ g Q hf
  have e : ∀ s, (Binomial.sample g s ⟨n, P, P.not⟩).1 = .ok (g.drawNat (.binomial n P.val) s).1 := fun s => by
    unfold Binomial.sample RandSrc.sampleNat; rw [if_pos ⟨h0, h1⟩]
  refine ⟨fun s => ⟨_, e s⟩, fun k _ => ?_⟩
  simp only [e, Except.ok.injEq]
  exact hf.nat _ _ (.binomial hp p0 p1) k

/-- C201: a geometric sample has the geometric mass function (number of failures), for a positive success probability. -/
theorem C201_geometric_sample_partial {a : F64} {p : ℝ} {d : Geometric} (h : Geometric.new a = .ok d) (hp : a.Is p) (p0 : 0 < p) :
    SampleFollowsPMF (fun _ g s => d.sample g s) (geomPMF p) univ := by
  obtain ⟨⟨h0, h1⟩, rfl⟩ := Geometric.new_ok.1 h
  have p1 := (hp.le_iff Is.one).1 h1
  intro σ _ g Q hf
  have e : ∀ s, (Geometric.sample g s ⟨⟨a⟩, ⟨1 - a⟩⟩).1 = .ok (g.drawNat (.geometric a) s).1 := fun s => by
    unfold Geometric.sample RandSrc.sampleNat; rw [if_pos ⟨h0, h1⟩]
  refine ⟨fun s => ⟨_, e s⟩, fun k _ => ?_⟩
  simp only [e, Except.ok.injEq]
  exact hf.nat _ _ (.geometric hp p0 p1) k

/-- C201 (violation): the constructor accepts success probability 0; then `pmf` is 0 everywhere while `sample` always returns a value, so
for every source and every law of its state some value is drawn with positive probability although its mass is reported as 0. -/
theorem C201_geometric_sample_violated {a : F64} {d : Geometric} (h : Geometric.new a = .ok d) (hp : a.Is 0)
    {σ : Type} [MeasurableSpace σ] (g : RandSrc σ) (Q : Measure σ) (hQ : Q ≠ 0) :
    ∃ k, Q {s | (d.sample g s).1 = .ok k} ≠ 0 ∧ (d.pmf k).val.Is 0 := by
  obtain ⟨⟨h0, h1⟩, rfl⟩ := Geometric.new_ok.1 h
  have e : ∀ s, (Geometric.sample g s ⟨⟨a⟩, ⟨1 - a⟩⟩).1 = .ok (g.drawNat (.geometric a) s).1 := fun s => by
    unfold Geometric.sample RandSrc.sampleNat; rw [if_pos ⟨h0, h1⟩]
  have hk : ∃ k, Q {s | (Geometric.sample g s ⟨⟨a⟩, ⟨1 - a⟩⟩).1 = .ok k} ≠ 0 := by
    by_contra hc
    push Not at hc
    have hu : (⋃ k, {s | (Geometric.sample g s ⟨⟨a⟩, ⟨1 - a⟩⟩).1 = .ok k}) = univ :=
      eq_univ_of_forall fun s => mem_iUnion.2 ⟨_, e s⟩
    have := measure_iUnion_null hc
    rw [hu] at this
    exact hQ (Measure.measure_univ_eq_zero.1 this)
  obtain ⟨k, hk⟩ := hk
  refine ⟨k, hk, ?_⟩
  have hq : (1 - a).Is 1 := (Is.one.sub hp).congr (by norm_num)
  have hw : (F64.powi (1 - a) (i32wrap k)).Is 1 := by
    rcases le_or_gt 0 (i32wrap k) with hn | hn
    · lift i32wrap k to ℕ using hn with n
      exact (hq.powi n).congr (one_pow n)
    · obtain ⟨n, hn'⟩ : ∃ n : ℕ, i32wrap k = -(n : ℤ) := ⟨(-(i32wrap k)).toNat, by omega⟩
      rw [hn']
      exact (hq.powi_neg one_ne_zero n (by omega)).congr (by simp)
  exact (hp.mul hw).congr (zero_mul 1)

/-- C196: a Bernoulli sample is true with the success probability. -/
theorem C196_bernoulli_sample {a : F64} {p : ℝ} {d : Bernoulli} (h : Bernoulli.new a = .ok d) (hp : a.Is p) :
    SampleFollowsPMF (fun _ g s => d.sample g s) (bernPMF p) univ := by
  obtain ⟨⟨h0, h1⟩, rfl⟩ := Bernoulli.new_ok.1 h
  have p0 := (Is.zero.le_iff hp).1 h0
  have p1 := (hp.le_iff Is.one).1 h1
  intro σ _ g Q hf
  have e : ∀ s, (Bernoulli.sample g s ⟨⟨a⟩, ⟨1 - a⟩, a * (1 - a)⟩).1 = .ok (g.genBool a s).1 := fun s => by
    unfold Bernoulli.sample; rw [if_pos ⟨h0, h1⟩]
  refine ⟨fun s => ⟨_, e s⟩, fun k _ => ?_⟩
  simp only [e, Except.ok.injEq]
  obtain ⟨t, f⟩ := hf.bool a p hp p0 p1
  cases k
  · exact f
  · exact t

/-- C199: a sample of the discrete uniform distribution is uniform on the integers from `lb` to `lb + width`, when those fit. -/
theorem C199_uniform_int_sample_partial {pr : Profile} {lb : ℤ} {w : ℕ} {d : UniformI} (hf : UniformI.Fits lb w)
    (h : UniformI.new pr lb w = .ok (.ok d)) :
    SampleFollowsPMF (fun _ g s => d.sample g s pr) (uniformPMF lb (lb + w)) univ := by
  obtain ⟨hw, rfl⟩ := (UniformI.new_ok hf).1 h
  obtain ⟨h1, h2, h3⟩ := UniformI.Fits.bounds hf
  have hub : i64chk pr (lb + (w : ℤ)) = .ok (lb + (w : ℤ)) := i64chk_ok ⟨by omega, h2⟩
  intro σ _ g Q hf
  have e : ∀ s, (UniformI.sample g s pr ⟨lb, w, 1 / F64.ofInt ((w : ℤ) + 1)⟩).1 = .ok (g.drawInt lb (lb + w) s).1 := fun s => by
    unfold UniformI.sample; simp only [hub]; rw [if_pos (by omega)]
  refine ⟨fun s => ⟨_, e s⟩, fun k _ => ?_⟩
  simp only [e, Except.ok.injEq]
  exact hf.int _ _ (by omega) k

/-- C199 (violated): for every lower bound and width whose upper end does not fit an i64, `sample` panics, in both build profiles,
although the constructor returned a distribution. -/
theorem C199_uniform_int_sample_violated {pr : Profile} {lb : ℤ} {w : ℕ} {d : UniformI} (h1 : I64MIN ≤ lb) (h2 : lb ≤ I64MAX)
    (h3 : (w : ℤ) < I64MAX) (ho : I64MAX < lb + w) (h : UniformI.new pr lb w = .ok (.ok d)) :
    ∀ (σ : Type) (g : RandSrc σ) (s : σ), ∃ e, (d.sample g s pr).1 = .error e := by
  intro σ g s
  have hw : i64wrap w = w := i64wrap_eq ⟨by unfold I64MIN; omega, h3.le⟩
  have hd : d.lb = lb ∧ d.width = w := by
    unfold UniformI.new at h
    rw [hw] at h
    split at h
    · cases h
    · rename_i w' hw'
      obtain ⟨h0, rfl⟩ := (Scale.newI_ok _ _).1 hw'
      rw [i64chk_ok ⟨by unfold I64MIN; omega, by omega⟩] at h
      cases h; exact ⟨rfl, rfl⟩
  unfold UniformI.sample
  rw [hd.1, hd.2]
  unfold i64chk
  rw [if_neg (by omega)]
  cases pr
  · exact ⟨_, rfl⟩
  · have : ¬ lb ≤ i64wrap (lb + w) := by
      unfold i64wrap I64MAX I64MIN at *
      omega
    simp only [if_neg this]
    exact ⟨_, rfl⟩

theorem toU64_is {x : F64} {r : ℝ} (h : x.Is r) : x.toU64 = Min.min ⌊r⌋₊ (U64 - 1) := by
  rcases h with rfl | ⟨rfl, rfl⟩
  · show (if r < 0 then 0 else Min.min ⌊r⌋₊ (U64 - 1)) = _
    split_ifs with c
    · rw [Nat.floor_of_nonpos c.le]; exact (Nat.zero_min _).symm
    · rfl
  · simp [F64.toU64]

/-- C196: a Poisson sample never panics and has the Poisson mass function, except that all the mass from `u64::MAX` on sits at `u64::MAX`. -/
theorem C196_poisson_sample {a : F64} {l : ℝ} {d : Poisson} (h : Poisson.new a = .ok d) (ha : a.Is l) :
    SampleFollowsPMF (fun _ g s => d.sample g s) (poisPMF l) {k | k < 2 ^ 64 - 1} := by
  obtain ⟨h0, rfl⟩ := Poisson.new_ok.1 h
  have hl : 0 < l := pos_of_lt h0 ha
  lift l to NNReal using hl.le
  have hl' : 0 < l := by exact_mod_cast hl
  intro σ _ g P hf
  have hacc : (RealSampler.poisson a).Accepts := h0
  have e : ∀ s, (Poisson.sample g s ⟨a⟩).1 = .ok (g.draw (.poisson a) s).1.toU64 := fun s => by
    unfold Poisson.sample RandSrc.sample; rw [if_pos hacc]
  refine ⟨fun s => ⟨_, e s⟩, fun k hk => ?_⟩
  simp only [e, Except.ok.injEq]
  obtain ⟨Y, hY, hi, hm⟩ := hf.real _ _ (.poisson ha hl')
  have c : {s | (g.draw (.poisson a) s).1.toU64 = k} = Y ⁻¹' {x | ⌊x⌋₊ = k} := by
    ext s
    show (g.draw (.poisson a) s).1.toU64 = k ↔ ⌊Y s⌋₊ = k
    rw [toU64_is (hi s)]
    have : k < U64 - 1 := hk
    omega
  have hA : MeasurableSet {x : ℝ | ⌊x⌋₊ = k} := (Nat.measurable_floor (R := ℝ)) (measurableSet_singleton k)
  rw [c, ← Measure.map_apply hY hA, hm, Measure.map_apply (by fun_prop) hA]
  have : (Nat.cast : ℕ → ℝ) ⁻¹' {x : ℝ | ⌊x⌋₊ = k} = {k} := by
    ext j; simp
  rw [this, poissonMeasure_singleton]
  unfold poisPMF
  congr 1
  ring

/-- C197: a Kumaraswamy sample has the Kumaraswamy law. -/
theorem C197_kumaraswamy_sample {a b : F64} {p q : ℝ} {d : Kumaraswamy} (h : Kumaraswamy.new a b = .ok d) (ha : a.Is p) (hb : b.Is q) :
    SampleFollows (fun _ g s => d.sample g s) (Law (kumaraswamyPDF p q)) := by
  obtain ⟨h0, h1, rfl⟩ := Kumaraswamy.new_ok.1 h
  have hp : 0 < p := pos_of_lt h0 ha
  have hq : 0 < q := pos_of_lt h1 hb
  obtain ⟨hF, hD⟩ := kuma_density hp hq
  intro σ _ g P hf
  have hub : ((0 : F64) + 1).Is 1 := (Is.zero.add Is.one).congr (zero_add 1)
  have hu : Follows P (fun s => (stdUniform g s).1) (unif 0 1) :=
    sample_follows hf (.uniformIncl Is.zero hub one_pos) ((Is.zero.le_iff hub).2 one_pos.le)
  have hT : Measurable fun r : ℝ => (1 - (1 - r) ^ (1 / q)) ^ (1 / p) := by fun_prop
  rw [← unif_transform one_pos hT hF hD fun u hu => ?_]
  · refine hu.map hT (t := Kumaraswamy.sampleFrom ⟨a, b⟩) (A := Ioo 0 1) measurableSet_Ioo ?_ (fun x u hu hx => ?_) fun s x hx => ?_
    · rw [unif_std, Measure.restrict_congr_set Ioo_ae_eq_Icc.symm, Measure.restrict_apply measurableSet_Ioo.compl]; simp
    · obtain ⟨hr, hr1⟩ := hu
      have h1r : 0 < 1 - u := by linarith
      have h2 : 0 < 1 - (1 - u) ^ (1 / q) := sub_pos.2 (Real.rpow_lt_one h1r.le (by linarith) (by positivity))
      have h3 : 0 < (1 - u) ^ (1 / q) := by positivity
      unfold Kumaraswamy.sampleFrom
      fev
    · show (Kumaraswamy.sample g s ⟨a, b⟩).1 = _
      unfold Kumaraswamy.sample
      revert hx
      rcases stdUniform g s with ⟨_ | _, _⟩
      · intro hx; cases hx
      · intro hx; cases hx; rfl
  · obtain ⟨x, hx, -, -, hc, -⟩ := (C72_kumaraswamy h ha hb).2.2.2.2.2.2.2.2.2.1 (fin u) u (Is.fin u) hu.1 hu.2
    obtain ⟨hr, hr1⟩ := hu
    have h1r : 0 < 1 - u := by linarith
    have h2 : 0 < 1 - (1 - u) ^ (1 / q) := sub_pos.2 (Real.rpow_lt_one h1r.le (by linarith) (by positivity))
    have h3 : 0 < (1 - u) ^ (1 / q) := by positivity
    have : (Kumaraswamy.sampleFrom ⟨a, b⟩ (fin u)).Is ((1 - (1 - u) ^ (1 / q)) ^ (1 / p)) := by
      have hu := Is.fin u
      unfold Kumaraswamy.sampleFrom
      fev
    rw [this.eq hx, hc]; ring

/-- C197: a Laplace sample has the Laplace law. -/
theorem C197_laplace_sample {a b : F64} {m s : ℝ} {d : Laplace} (h : Laplace.new a b = .ok d) (ha : a.Is m) (hb : b.Is s) :
    SampleFollows (fun _ g s => d.sample g s) (Law (laplacePDF m s)) := by
  have hx := h
  obtain ⟨h0, rfl⟩ := Laplace.new_ok.1 h
  have hs : 0 < s := pos_of_lt h0 hb
  obtain ⟨hF, hD⟩ := laplace_density m hs
  intro σ _ g P hf
  have hlt : (-1 / 2 : ℝ) < 1 / 2 := by norm_num
  have hu : Follows P (fun s => (g.sample (.uniform (F64.fin (-1 / 2)) (F64.fin (1 / 2))) s).1) (unif (-1 / 2) (1 / 2)) :=
    sample_follows hf (.uniform (Is.fin _) (Is.fin _) hlt) (fin_lt_fin.2 hlt)
  have hT : Measurable fun r : ℝ => m - s * (if r < 0 then -1 else 1) * Real.log (1 - 2 * |r|) := by
    have : Measurable fun r : ℝ => if r < 0 then (-1:ℝ) else 1 :=
      Measurable.ite measurableSet_Iio measurable_const measurable_const
    have : Measurable fun r : ℝ => |r| := continuous_abs.measurable
    fun_prop
  have key : ∀ (x : F64) (u : ℝ), u ∈ Ioo (-1 / 2 : ℝ) (1 / 2) → x.Is u →
      (Laplace.sampleFrom ⟨a, b⟩ x).Is (m - s * (if u < 0 then -1 else 1) * Real.log (1 - 2 * |u|)) := fun x u hu hx => by
    have hln : 0 < 1 - 2 * |u| := by
      rcases abs_cases u with ⟨h, _⟩ | ⟨h, _⟩ <;> rw [h] <;> linarith [hu.1, hu.2]
    rcases signum_is hx with hσ | ⟨rfl, hσ⟩
    · unfold Laplace.sampleFrom; fev
    · refine Is.congr (r := m - s * -1 * Real.log (1 - 2 * |(0:ℝ)|)) (by unfold Laplace.sampleFrom; fev) (by simp)
  rw [← unif_transform hlt hT hF hD fun u hu => ?_]
  · refine hu.map hT (t := Laplace.sampleFrom ⟨a, b⟩) (A := Ioo (-1 / 2) (1 / 2)) measurableSet_Ioo ?_ (fun x u hu hx => key x u hu hx)
      fun s x hx => ?_
    · rw [unif_apply]
      have : volume (Icc (-1 / 2) (1 / 2) ∩ (Ioo (-1 / 2) (1 / 2))ᶜ : Set ℝ) = 0 := by
        refine measure_mono_null (t := {-1 / 2, 1 / 2}) (fun x hx => ?_) ((Set.toFinite _).measure_zero _)
        obtain ⟨⟨a1, a2⟩, a3⟩ := hx
        rcases eq_or_lt_of_le a1 with e | e
        · exact Or.inl e.symm
        · exact Or.inr (le_antisymm a2 (not_lt.1 fun h => a3 ⟨e, h⟩))
      rw [this, mul_zero]
    · show (Laplace.sample g s ⟨a, b⟩).1 = _
      unfold Laplace.sample
      revert hx
      rcases g.sample (.uniform (F64.fin (-1 / 2)) (F64.fin (1 / 2))) s with ⟨_ | _, _⟩
      · intro hx; cases hx
      · intro hx; cases hx; rfl
  · obtain ⟨x, h1, h2⟩ := (C65_laplace_rest_partial hx ha hb).2.2.2.2.2.2.2.2.2 (fin u) u (Is.fin u)
      (by linarith [hu.1]) hu.2
    rw [(key (fin u) u hu (Is.fin u)).eq h1, h2]; ring

/-- C200 (violated): a Fréchet sample has the Weibull law of scale 1 and the given shape; it never has the Fréchet law. -/
theorem C200_frechet_sample_violated {a : F64} {α : ℝ} {d : Frechet} (h : Frechet.new a = .ok d) (ha : a.Is α) :
    SampleFollows (fun _ g s => d.sample g s) (Law (weibullPDF 1 α)) ∧
    ¬ SampleFollows (fun _ g s => d.sample g s) (Law (frechetPDF α)) := by
  have hx := h
  obtain ⟨h0, rfl⟩ := Frechet.new_ok.1 h
  have hα : 0 < α := pos_of_lt h0 ha
  obtain ⟨hF, hD⟩ := weibull_density one_pos hα
  have hV := C69_frechet_sampling_violated hx ha
  have key : ∀ (x : F64) (u : ℝ), u ∈ Ioo (0 : ℝ) 1 → x.Is u →
      (Frechet.sampleFrom ⟨a⟩ x).Is ((-Real.log u) ^ (1 / α)) := fun x u hu hx => by
    have h0 := hu.1
    have hl : 0 < -Real.log u := neg_pos.2 (Real.log_neg hu.1 hu.2)
    unfold Frechet.sampleFrom; fev
  have main : SampleFollows (fun _ g s => Frechet.sample g s ⟨a⟩) (Law (weibullPDF 1 α)) := by
    intro σ _ g P hf
    have hub : ((0 : F64) + 1).Is 1 := (Is.zero.add Is.one).congr (zero_add 1)
    have hu : Follows P (fun s => (stdUniform g s).1) (unif 0 1) :=
      sample_follows hf (.uniformIncl Is.zero hub one_pos) ((Is.zero.le_iff hub).2 one_pos.le)
    have hT : Measurable fun r : ℝ => (-Real.log r) ^ (1 / α) := by fun_prop
    rw [← unif_transform_anti one_pos hT hF hD fun u hu => ?_]
    · refine hu.map hT (t := Frechet.sampleFrom ⟨a⟩) (A := Ioo 0 1) measurableSet_Ioo ?_ (fun x u hu hx => key x u hu hx) fun s x hx => ?_
      · rw [unif_std, Measure.restrict_congr_set Ioo_ae_eq_Icc.symm, Measure.restrict_apply measurableSet_Ioo.compl]; simp
      · show (Frechet.sample g s ⟨a⟩).1 = _
        unfold Frechet.sample
        revert hx
        rcases stdUniform g s with ⟨_ | _, _⟩
        · intro hx; cases hx
        · intro hx; cases hx; rfl
    · obtain ⟨x, h1, h2, -⟩ := hV.1 (fin u) u (Is.fin u) hu.1 hu.2
      rw [(key (fin u) u hu (Is.fin u)).eq h1, h2]; ring
  exact ⟨main, fun h2 => hV.2 (law_injective (frechet_density hα).2 hD (h2.unique main))⟩

/-- C198 (violated): thirteen distributions have no sampler: whatever the parameters and the source, `sample` panics. -/
theorem C198_sample_unimplemented_violated {σ : Type} (s : σ) :
    (∀ d : Arcsine, (d.sample s).1 = .error .unimplemented) ∧ (∀ d : BetaBinomial, (d.sample s).1 = .error .unimplemented) ∧
    (∀ d : BetaPrime, (d.sample s).1 = .error .unimplemented) ∧ (∀ d : Chi, (d.sample s).1 = .error .unimplemented) ∧
    (∀ d : Cosine, (d.sample s).1 = .error .unimplemented) ∧ (∀ d : Erlang, (d.sample s).1 = .error .unimplemented) ∧
    (∀ d : GeneralisedExtremeValue, (d.sample s).1 = .error .unimplemented) ∧
    (∀ d : GeneralisedPareto, (d.sample s).1 = .error .unimplemented) ∧ (∀ d : Gumbel, (d.sample s).1 = .error .unimplemented) ∧
    (∀ d : InvGamma, (d.sample s).1 = .error .unimplemented) ∧ (∀ d : Levy, (d.sample s).1 = .error .unimplemented) ∧
    (∀ d : Logistic, (d.sample s).1 = .error .unimplemented) ∧ (∀ d : Rayleigh, (d.sample s).1 = .error .unimplemented) :=
  ⟨fun _ => rfl, fun _ => rfl, fun _ => rfl, fun _ => rfl, fun _ => rfl, fun _ => rfl, fun _ => rfl, fun _ => rfl, fun _ => rfl,
    fun _ => rfl, fun _ => rfl, fun _ => rfl, fun _ => rfl⟩
end

section
attribute [local instance] exactFP exactFP_exact
/-- a documented source exists; with it, `Exponential::new(3)` samples the law of rate 3 and `Gamma::new(2, 3)` does not sample its own law -/
example : (∃ d, Exponential.new (fin 3) = .ok d ∧ Follows tapeLaw (fun s => (d.sample tapeSrc s).1) (Law (expPDF 3))) ∧
    (∃ d, Gamma.new (fin 2) (fin 3) = .ok d ∧ ¬ SampleFollows (fun _ g s => d.sample g s) (Law (gammaPDFReal 2 3))) := by
  have h : Exponential.new (fin 3) = .ok ⟨fin 3⟩ := Exponential.new_ok.2 ⟨fin_lt_fin.2 (by norm_num), rfl⟩
  have h2 : Gamma.new (fin 2) (fin 3) = .ok ⟨fin 2, fin 3⟩ :=
    Gamma.new_ok.2 ⟨fin_lt_fin.2 (by norm_num), fin_lt_fin.2 (by norm_num), rfl⟩
  exact ⟨⟨_, h, C191_exponential_sample h (Is.fin _) _ _ _ tape_faithful⟩, _, h2, fun hs =>
    absurd ((C193_gamma_sample_violated h2 (Is.fin _) (Is.fin _)).2.1 hs) (by norm_num)⟩

/-- `Laplace::new(1, 3)`, `Poisson::new(4)` and `Binomial::new(5, 1/3)` sample their laws from that source -/
example : (∃ d, Laplace.new (fin 1) (fin 3) = .ok d ∧ Follows tapeLaw (fun s => (d.sample tapeSrc s).1) (Law (laplacePDF 1 3))) ∧
    (∃ d, Poisson.new (fin 4) = .ok d ∧ tapeLaw {s | (d.sample tapeSrc s).1 = .ok 2} = ENNReal.ofReal (poisPMF 4 2)) ∧
    (∃ d, Binomial.new 5 ⟨fin (1/3)⟩ = .ok d ∧ tapeLaw {s | (d.sample tapeSrc s).1 = .ok 2} = ENNReal.ofReal (binPMF 5 (1/3) 2)) := by
  have h1 : Laplace.new (fin 1) (fin 3) = .ok ⟨fin 1, fin 3⟩ := Laplace.new_ok.2 ⟨fin_lt_fin.2 (by norm_num), rfl⟩
  have h2 : Poisson.new (fin 4) = .ok ⟨fin 4⟩ := Poisson.new_ok.2 ⟨fin_lt_fin.2 (by norm_num), rfl⟩
  have h3 : Binomial.new 5 ⟨fin (1/3)⟩ = .ok ⟨5, ⟨fin (1/3)⟩, Probability.not ⟨fin (1/3)⟩⟩ :=
    Binomial.new_ok.2 ⟨⟨fin_le_fin.2 (by norm_num), fin_le_fin.2 (by norm_num)⟩, rfl⟩
  exact ⟨⟨_, h1, C197_laplace_sample h1 (Is.fin _) (Is.fin _) _ _ _ tape_faithful⟩,
    ⟨_, h2, (C196_poisson_sample h2 (Is.fin _) _ _ _ tape_faithful).2 2 (by norm_num)⟩,
    _, h3, (C196_binomial_sample h3 (Is.fin _) _ _ _ tape_faithful).2 2 (mem_univ _)⟩

/-- `Pareto::new(-1, 2)`, `StudentT::new(0)` are accepted and cannot be sampled; neither can the discrete uniform law on
`[i64::MAX - 1, i64::MAX + 1]` -/
example : (∃ d, Pareto.new (fin (-1)) (fin 2) = .ok d ∧ ∀ (σ : Type) (g : RandSrc σ) (s : σ), (d.sample g s).1 = .error .unwrap) ∧
    (∃ d, StudentT.new (fin 0) = .ok d ∧ ∀ (σ : Type) (g : RandSrc σ) (s : σ), (d.sample g s).1 = .error .unwrap) :=
  ⟨C192_pareto_sample_violated (Is.fin _) (by norm_num) (fin_lt_fin.2 (by norm_num)), C195_student_sample_violated (Is.fin _) le_rfl⟩

/-- C201 (violation) on the tape source -/
example : ∃ d, Geometric.new (fin 0) = .ok d ∧ ∃ k, tapeLaw {s | (d.sample tapeSrc s).1 = .ok k} ≠ 0 ∧ (d.pmf k).val.Is 0 := by
  have h : Geometric.new (fin 0) = .ok ⟨⟨fin 0⟩, ⟨1 - fin 0⟩⟩ :=
    Geometric.new_ok.2 ⟨⟨fin_le_fin.2 le_rfl, fin_le_fin.2 (by norm_num)⟩, rfl⟩
  exact ⟨_, h, C201_geometric_sample_violated h (Is.fin 0) _ _ (by
    have i1 := pickReal_prob
    have i2 := pickNat_prob
    have i3 := pickInt_prob
    have i4 := pickBool_prob
    unfold tapeLaw; exact IsProbabilityMeasure.ne_zero _)⟩
end
end Rstat
