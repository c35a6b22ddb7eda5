import Verif.Props.RoundTrip
import Verif.Props.Dirichlet
import Verif.Props.MvLogNormal
import Verif.Props.Samplers
import Verif.Spec.Support
import Verif.Model.Dist.Support

/-! C220: the set returned by `support()` is the support of the law: no mass outside it, positive mass on each of its open parts. -/
set_option linter.unusedSectionVars false
namespace Rstat
open F64 Spec MeasureTheory ProbabilityTheory Matrix

theorem supported_of_density {f F : ℝ → ℝ} {I : Set ℝ} (h : IsDensityOf f F) (c : ℝ) (h0 : ∀ x, x ∉ I → x ≠ c → f x = 0)
    (hp : ∀ x ∈ interior I, 0 < f x) : SupportedOn I (Law f) := by
  have hm : AEMeasurable (fun x => ENNReal.ofReal (f x)) volume := h.integrable.aemeasurable.ennreal_ofReal
  refine ⟨?_, fun U hU hne hUI => ?_⟩
  · unfold Law
    rw [withDensity_apply_eq_zero' hm]
    refine measure_mono_null (t := {c}) ?_ (by simp)
    rintro x ⟨hx, hxI⟩
    by_contra hc
    exact hx (by show ENNReal.ofReal (f x) = 0; rw [h0 x hxI hc, ENNReal.ofReal_zero])
  · refine pos_iff_ne_zero.2 fun hz => ?_
    unfold Law at hz
    rw [withDensity_apply_eq_zero' hm] at hz
    have e : {x | ENNReal.ofReal (f x) ≠ 0} ∩ U = U := by
      refine Set.inter_eq_right.2 fun x hx => ?_
      have := hp x (interior_maximal hUI hU hx)
      exact (ENNReal.ofReal_pos.2 this).ne'
    rw [e] at hz
    exact (hU.measure_pos volume hne).ne' hz

/-- a law that has no mass on a non-empty open part of `I` is not supported on `I` -/
theorem not_supported {E : Type*} [TopologicalSpace E] [MeasurableSpace E] {I U : Set E} {μ : Measure E} (hU : IsOpen U) (hne : U.Nonempty)
    (hUI : U ⊆ I) (h : μ U = 0) : ¬ SupportedOn I μ := fun hs => (hs.2 U hU hne hUI).ne' h

theorem supported_univ {f F : ℝ → ℝ} (h : IsDensityOf f F) (hp : ∀ x, 0 < f x) : SupportedOn Set.univ (Law f) :=
  supported_of_density h 0 (fun x hx => absurd (Set.mem_univ x) hx) fun x _ => hp x

theorem supported_pos {f F : ℝ → ℝ} (h : IsDensityOf f F) (h0 : ∀ x, x < 0 → f x = 0) (hp : ∀ x, 0 < x → 0 < f x) :
    SupportedOn {x | 0 < x} (Law f) :=
  supported_of_density h 0 (fun x hx hc => h0 x (lt_of_le_of_ne (not_lt.1 hx) hc)) fun x hx => hp x (interior_subset hx)

theorem supported_Ici {f F : ℝ → ℝ} (h : IsDensityOf f F) (m : ℝ) (h0 : ∀ x, x < m → f x = 0) (hp : ∀ x, m < x → 0 < f x) :
    SupportedOn (Set.Ici m) (Law f) :=
  supported_of_density h 0 (fun x hx _ => h0 x (not_le.1 hx)) fun x hx => hp x (by rw [interior_Ici] at hx; exact hx)

theorem supported_Icc {f F : ℝ → ℝ} (h : IsDensityOf f F) (a b : ℝ) (h0 : ∀ x, x < a ∨ b < x → f x = 0) (hp : ∀ x, a < x → x < b → 0 < f x) :
    SupportedOn (Set.Icc a b) (Law f) :=
  supported_of_density h 0 (fun x hx _ => h0 x (by by_contra hc; push Not at hc; exact hx hc))
    fun x hx => by rw [interior_Icc] at hx; exact hp x hx.1 hx.2

section
variable [FP] [FP.Exact]

theorem closed_points {a b : F64} {l u : ℝ} (ha : a.Is l) (hb : b.Is u) : (RealSpace.closed a b).points = Set.Icc l u := by
  ext x; exact and_congr (ha.le_iff (Is.fin x)) ((Is.fin x).le_iff hb)
theorem leftClosed_points {a : F64} {l : ℝ} (ha : a.Is l) : (RealSpace.leftClosed a).points = Set.Ici l := by
  ext x; exact ha.le_iff (Is.fin x)
theorem unit_points : (RealSpace.closed 0 1).points = Set.Icc (0:ℝ) 1 := closed_points Is.zero Is.one

/-- C220: gumbel, the whole line -/
theorem C220_gumbel_support {a b : F64} {m s : ℝ} {d : Gumbel} (h : Gumbel.new a b = .ok d) (ha : a.Is m) (hb : b.Is s) :
    SupportedOn d.support.points (Law (gumbelPDF m s)) := by
  obtain ⟨h0, rfl⟩ := Gumbel.new_ok.1 h
  have hs : 0 < s := pos_of_lt h0 hb
  exact supported_univ (gumbel_density m hs).2 fun x => by unfold gumbelPDF; positivity
/-- C220: cauchy, the whole line -/
theorem C220_cauchy_support {a b : F64} {m s : ℝ} {d : Cauchy} (h : Cauchy.new a b = .ok d) (ha : a.Is m) (hb : b.Is s) :
    SupportedOn d.support.points (Law (cauchyDensity m s)) := by
  obtain ⟨h0, rfl⟩ := Cauchy.new_ok.1 h
  have hs : 0 < s := pos_of_lt h0 hb
  exact supported_univ (cauchy_density m hs).2 fun x => by unfold cauchyDensity; positivity
/-- C220: logistic, the whole line -/
theorem C220_logistic_support {a b : F64} {m s : ℝ} {d : Logistic} (h : Logistic.new a b = .ok d) (ha : a.Is m) (hb : b.Is s) :
    SupportedOn d.support.points (Law (logisticPDF m s)) := by
  obtain ⟨h0, rfl⟩ := Logistic.new_ok.1 h
  have hs : 0 < s := pos_of_lt h0 hb
  exact supported_univ (logistic_density m hs).2 fun x => by unfold logisticPDF; positivity
/-- C220: laplace, the whole line -/
theorem C220_laplace_support {a b : F64} {m s : ℝ} {d : Laplace} (h : Laplace.new a b = .ok d) (ha : a.Is m) (hb : b.Is s) :
    SupportedOn d.support.points (Law (laplacePDF m s)) := by
  obtain ⟨h0, rfl⟩ := Laplace.new_ok.1 h
  have hs : 0 < s := pos_of_lt h0 hb
  exact supported_univ (laplace_density m hs).2 fun x => by unfold laplacePDF; positivity
/-- C220: normal (mean, variance), the whole line -/
theorem C220_normal_support {a b : F64} {m s : ℝ} {d : UvNormal} (h : UvNormal.new a b = .ok d) (ha : a.Is m) (hb : b.Is s) :
    SupportedOn (UvNormal.support d).points (Law (gaussianPDFReal m s.toNNReal)) := by
  obtain ⟨h0, rfl⟩ := UvNormal.new_ok.1 h
  have hs : 0 < s := pos_of_lt h0 hb
  exact supported_univ (normal_density m hs).2 fun x => gaussianPDFReal_pos _ _ _ (by simpa using hs)
/-- C220: Student with positive degrees of freedom, the whole line -/
theorem C220_student_support {a : F64} {n : ℝ} {d : StudentT} (_ : StudentT.new a = .ok d) (_ : a.Is n) (hn : 0 < n) :
    SupportedOn d.support.points (Law (studentPDF n)) := by
  exact supported_univ (student_density hn).2 fun x => student_pos hn x
/-- C220: inverse_gamma, the positive half line -/
theorem C220_inverse_gamma_support {a b : F64} {p q : ℝ} {d : InvGamma} (h : InvGamma.new a b = .ok d) (ha : a.Is p) (hb : b.Is q) :
    SupportedOn d.support.points (Law (invGammaPDF p q)) := by
  obtain ⟨h0, h1, rfl⟩ := InvGamma.new_ok.1 h
  have hp : 0 < p := pos_of_lt h0 ha
  have hq : 0 < q := pos_of_lt h1 hb
  exact supported_pos (invGamma_density hp hq).2 (fun x hx => if_pos hx.le) fun x hx => by have := Real.Gamma_pos_of_pos hp; unfold invGammaPDF; rw [if_neg hx.not_ge]; positivity
/-- C220: weibull, the positive half line -/
theorem C220_weibull_support {a b : F64} {p q : ℝ} {d : Weibull} (h : Weibull.new a b = .ok d) (ha : a.Is p) (hb : b.Is q) :
    SupportedOn d.support.points (Law (weibullPDF p q)) := by
  obtain ⟨h0, h1, rfl⟩ := Weibull.new_ok.1 h
  have hp : 0 < p := pos_of_lt h0 ha
  have hq : 0 < q := pos_of_lt h1 hb
  exact supported_pos (weibull_density hp hq).2 (fun x hx => if_pos hx.le) fun x hx => by unfold weibullPDF; rw [if_neg hx.not_ge]; positivity
/-- C220: gamma, the positive half line -/
theorem C220_gamma_support {a b : F64} {p q : ℝ} {d : Gamma} (h : Gamma.new a b = .ok d) (ha : a.Is p) (hb : b.Is q) :
    SupportedOn d.support.points (Law (gammaPDFReal p q)) := by
  obtain ⟨h0, h1, rfl⟩ := Gamma.new_ok.1 h
  have hp : 0 < p := pos_of_lt h0 ha
  have hq : 0 < q := pos_of_lt h1 hb
  exact supported_pos (gamma_density hp hq).2 (fun x hx => by unfold gammaPDFReal; rw [if_neg hx.not_ge]) fun x hx => by exact gammaPDFReal_pos hp hq hx
/-- C220: beta_prime, the positive half line -/
theorem C220_beta_prime_support {a b : F64} {p q : ℝ} {d : BetaPrime} (h : BetaPrime.new a b = .ok d) (ha : a.Is p) (hb : b.Is q) :
    SupportedOn d.support.points (Law (betaPrimePDF p q)) := by
  obtain ⟨h0, h1, rfl⟩ := BetaPrime.new_ok.1 h
  have hp : 0 < p := pos_of_lt h0 ha
  have hq : 0 < q := pos_of_lt h1 hb
  exact supported_pos (bp_density hp hq).2 (fun x hx => if_pos hx.le) fun x hx => by have := Beta_pos hp hq; unfold betaPrimePDF; rw [if_neg hx.not_ge]; positivity
/-- C220: inverse_normal, the positive half line -/
theorem C220_inverse_normal_support {a b : F64} {p q : ℝ} {d : InvNormal} (h : InvNormal.new a b = .ok d) (ha : a.Is p) (hb : b.Is q) :
    SupportedOn d.support.points (Law (invNormalPDF p q)) := by
  obtain ⟨h0, h1, rfl⟩ := InvNormal.new_ok.1 h
  have hp : 0 < p := pos_of_lt h0 ha
  have hq : 0 < q := pos_of_lt h1 hb
  exact supported_pos (invNormal_density hp hq).2 (fun x hx => if_pos hx.le) fun x hx => by unfold invNormalPDF; rw [if_neg hx.not_ge]; positivity
/-- C220: frechet, the positive half line -/
theorem C220_frechet_support {a : F64} {p : ℝ} {d : Frechet} (h : Frechet.new a = .ok d) (ha : a.Is p) :
    SupportedOn d.support.points (Law (frechetPDF p)) := by
  obtain ⟨h0, rfl⟩ := Frechet.new_ok.1 h
  have hp : 0 < p := pos_of_lt h0 ha
  exact supported_pos (frechet_density hp).2 (fun x hx => if_pos hx.le) fun x hx => by unfold frechetPDF; rw [if_neg hx.not_ge]; positivity
/-- C220: rayleigh, the positive half line -/
theorem C220_rayleigh_support {a : F64} {p : ℝ} {d : Rayleigh} (h : Rayleigh.new a = .ok d) (ha : a.Is p) :
    SupportedOn d.support.points (Law (rayleighPDF p)) := by
  obtain ⟨h0, rfl⟩ := Rayleigh.new_ok.1 h
  have hp : 0 < p := pos_of_lt h0 ha
  exact supported_pos (rayleigh_density hp).2 (fun x hx => if_pos hx.le) fun x hx => by unfold rayleighPDF; rw [if_neg hx.not_ge]; positivity
/-- C220: exponential, the positive half line -/
theorem C220_exponential_support {a : F64} {p : ℝ} {d : Exponential} (h : Exponential.new a = .ok d) (ha : a.Is p) :
    SupportedOn d.support.points (Law (expPDF p)) := by
  obtain ⟨h0, rfl⟩ := Exponential.new_ok.1 h
  have hp : 0 < p := pos_of_lt h0 ha
  exact supported_pos (exp_density hp).2 (fun x hx => if_neg hx.not_ge) fun x hx => by unfold expPDF; rw [if_pos hx.le]; positivity
/-- C220: chi, the positive half line -/
theorem C220_chi_support {k : ℕ} {d : Chi} (h : Chi.new k = .ok d) :
    SupportedOn d.support.points (Law (chiPDF k)) := by
  obtain ⟨h0, rfl⟩ := Chi.new_ok.1 h
  have hp : (0:ℝ) < k := Nat.cast_pos.2 h0
  exact supported_pos (chi_density hp).2 (fun x hx => if_pos hx.le) fun x hx => by have := Real.Gamma_pos_of_pos (half_pos hp); unfold chiPDF; rw [if_neg hx.not_ge]; positivity
/-- C220: chi_sq, the positive half line -/
theorem C220_chi_sq_support {k : ℕ} {d : ChiSq} (h : ChiSq.new k = .ok d) :
    SupportedOn d.support.points (Law (gammaPDFReal (k / 2) (1 / 2))) := by
  obtain ⟨h0, rfl⟩ := ChiSq.new_ok.1 h
  have hp : (0:ℝ) < k := Nat.cast_pos.2 h0
  exact supported_pos (gamma_density (half_pos hp) one_half_pos).2 (fun x hx => by unfold gammaPDFReal; rw [if_neg hx.not_ge]) fun x hx => by exact gammaPDFReal_pos (half_pos hp) one_half_pos hx
/-- C220: Erlang, the positive half line -/
theorem C220_erlang_support {k : ℕ} {b : F64} {q : ℝ} {d : Erlang} (h : Erlang.new k b = .ok d) (hb : b.Is q) :
    SupportedOn d.support.points (Law (gammaPDFReal k q)) := by
  obtain ⟨h0, h1, rfl⟩ := Erlang.new_ok.1 h
  have hp : (0:ℝ) < k := Nat.cast_pos.2 h0
  have hq : 0 < q := pos_of_lt h1 hb
  exact supported_pos (gamma_density hp hq).2 (fun x hx => by unfold gammaPDFReal; rw [if_neg hx.not_ge]) fun x hx => gammaPDFReal_pos hp hq hx
/-- C220: Fisher's F, the positive half line -/
theorem C220_f_support {k l : ℕ} {d : FDist} (h : FDist.new k l = .ok d) :
    SupportedOn d.support.points (Law (fPDF k l)) := by
  obtain ⟨h0, h1, rfl⟩ := FDist.new_ok.1 h
  have hp : (0:ℝ) < k := Nat.cast_pos.2 h0
  have hq : (0:ℝ) < l := Nat.cast_pos.2 h1
  refine supported_pos (f_density hp hq).2 (fun x hx => if_pos hx.le) fun x hx => ?_
  have := Beta_pos (half_pos hp) (half_pos hq)
  unfold fPDF; rw [if_neg hx.not_ge]; positivity
/-- C220: log-normal, the positive half line -/
theorem C220_lognormal_support {a b : F64} {m v : ℝ} {d : LogNormal} (h : LogNormal.new a b = .ok d) (ha : a.Is m) (hb : b.Is v) :
    SupportedOn d.support.points (Law (logNormalPDF m v)) := by
  obtain ⟨h0, rfl⟩ := LogNormal.new_ok.1 h
  have hv : 0 < v := pos_of_lt h0 hb
  refine supported_pos (logNormal_density m hv).2 (fun x hx => if_pos hx.le) fun x hx => ?_
  have := gaussianPDFReal_pos m v.toNNReal (Real.log x) (by simpa using hv)
  unfold logNormalPDF; rw [if_neg hx.not_ge]; positivity
/-- C220: folded normal, the non-negative half line -/
theorem C220_folded_normal_support {a b : F64} {m s : ℝ} {d : FoldedNormal} (h : FoldedNormal.new a b = .ok d) (ha : a.Is m) (hb : b.Is s) :
    SupportedOn d.support.points (Law (foldedPDF m s)) := by
  obtain ⟨h0, rfl⟩ := FoldedNormal.new_ok.1 h
  have hs : 0 < s := pos_of_lt h0 hb
  refine supported_Ici (folded_density hs).2 0 (fun x hx => if_pos hx) fun x hx => ?_
  have hv : (s ^ 2).toNNReal ≠ 0 := by simpa using hs.ne'
  have h1 := gaussianPDFReal_pos m _ x hv
  have h2 := gaussianPDFReal_pos m _ (-x) hv
  unfold foldedPDF; rw [if_neg hx.le.not_gt]; positivity
/-- C220: Lévy, the half line from the location on -/
theorem C220_levy_support {a b : F64} {m s : ℝ} {d : Levy} (h : Levy.new a b = .ok d) (ha : a.Is m) (hb : b.Is s) :
    SupportedOn d.space.points (Law (levyPDF m s)) := by
  obtain ⟨h0, rfl⟩ := Levy.new_ok.1 h
  have hs : 0 < s := pos_of_lt h0 hb
  have e : (Levy.space ⟨a, b⟩).points = Set.Ici m := leftClosed_points ha
  rw [e]
  refine supported_Ici (levy_density hs).2 m (fun x hx => if_pos hx.le) fun x hx => ?_
  have hx' : 0 < x - m := sub_pos.2 hx
  unfold levyPDF; rw [if_neg hx.not_ge]; positivity
/-- C220: Pareto with positive minimum, the half line from the minimum on -/
theorem C220_pareto_support {a b : F64} {m s : ℝ} {d : Pareto} (h : Pareto.new a b = .ok d) (ha : a.Is m) (hb : b.Is s) (hm : 0 < m) :
    SupportedOn d.support.points (Law (Spec.paretoPDF m s)) := by
  obtain ⟨h0, rfl⟩ := Pareto.new_ok.1 h
  have hs : 0 < s := pos_of_lt h0 hb
  have e : (Pareto.support ⟨a, b⟩).points = Set.Ici m := leftClosed_points ha
  rw [e]
  refine supported_Ici (pareto_density hm hs).2 m (fun x hx => if_pos hx) fun x hx => ?_
  have hx' : 0 < x := hm.trans hx
  unfold Spec.paretoPDF; rw [if_neg hx.le.not_gt]; positivity
/-- C220: Kumaraswamy, the unit interval -/
theorem C220_kumaraswamy_support {a b : F64} {p q : ℝ} {d : Kumaraswamy} (h : Kumaraswamy.new a b = .ok d) (ha : a.Is p) (hb : b.Is q) :
    SupportedOn d.support.points (Law (kumaraswamyPDF p q)) := by
  obtain ⟨h0, h1, rfl⟩ := Kumaraswamy.new_ok.1 h
  have hp : 0 < p := pos_of_lt h0 ha
  have hq : 0 < q := pos_of_lt h1 hb
  unfold Kumaraswamy.support
  rw [unit_points]
  refine supported_Icc (kuma_density hp hq).2 0 1 (fun x hx => if_pos (hx.imp le_of_lt le_of_lt)) fun x hx hx1 => ?_
  have := sub_pos.2 (Real.rpow_lt_one hx.le hx1 hp)
  unfold kumaraswamyPDF; rw [if_neg (by push Not; exact ⟨hx, hx1⟩)]; positivity
/-- C220: Beta, the unit interval -/
theorem C220_beta_support {a b : F64} {p q : ℝ} {d : BetaDist} (h : BetaDist.new a b = .ok d) (ha : a.Is p) (hb : b.Is q) :
    SupportedOn d.space.points (Law (betaPDFReal p q)) := by
  obtain ⟨h0, h1, rfl⟩ := BetaDist.new_ok.1 h
  have hp : 0 < p := pos_of_lt h0 ha
  have hq : 0 < q := pos_of_lt h1 hb
  have e : (BetaDist.space ⟨a, b⟩).points = Set.Icc 0 1 := unit_points
  rw [e]
  exact supported_Icc (beta_density hp hq).2 0 1 (fun x hx => if_neg (by rintro ⟨u, v⟩; rcases hx with hx | hx <;> linarith))
    fun x hx hx1 => betaPDFReal_pos hx hx1 hp hq
/-- C220: arcsine, from the location to location plus width -/
theorem C220_arcsine_support {a b : F64} {m s : ℝ} {d : Arcsine} (h : Arcsine.new a b = .ok d) (ha : a.Is m) (hb : b.Is s) :
    SupportedOn d.space.points (Law (arcsinePDF m (m + s))) := by
  obtain ⟨h0, rfl⟩ := Arcsine.new_ok.1 h
  have hs : 0 < s := pos_of_lt h0 hb
  have e : (Arcsine.space ⟨a, b⟩).points = Set.Icc m (m + s) := closed_points ha (ha.add hb)
  rw [e]
  refine supported_Icc (arcsine_density (by linarith)).2 m (m + s) (fun x hx => if_pos (hx.imp le_of_lt le_of_lt)) fun x hx hx1 => ?_
  have := sub_pos.2 hx
  have := sub_pos.2 hx1
  unfold arcsinePDF; rw [if_neg (by push Not; exact ⟨hx, hx1⟩)]; positivity
/-- C220: raised cosine -/
theorem C220_cosine_support {a b : F64} {m s : ℝ} {d : Cosine} (h : Cosine.new a b = .ok d) (ha : a.Is m) (hb : b.Is s) :
    SupportedOn d.space.points (Law (cosinePDF m s)) := by
  obtain ⟨h0, rfl⟩ := Cosine.new_ok.1 h
  have hs : 0 < s := pos_of_lt h0 hb
  have e : (Cosine.space ⟨a, b⟩).points = Set.Icc (m - s) (m + s) := closed_points (ha.sub hb) (ha.add hb)
  rw [e]
  refine supported_Icc (cosine_density hs).2 _ _ (fun x hx => if_pos (hx.imp le_of_lt le_of_lt)) fun x hx hx1 => ?_
  have hc : 0 < 1 + Real.cos (Real.pi * ((x - m) / s)) := by
    have h1 : |(x - m) / s| < 1 := by rw [abs_div, abs_of_pos hs, div_lt_one hs, abs_lt]; constructor <;> linarith
    have h2 : |Real.pi * ((x - m) / s)| < Real.pi := by
      rw [abs_mul, abs_of_pos Real.pi_pos]; nlinarith [Real.pi_pos]
    have := Real.cos_lt_cos_of_nonneg_of_le_pi (abs_nonneg _) le_rfl h2
    rw [Real.cos_pi, Real.cos_abs] at this; linarith
  unfold cosinePDF; rw [if_neg (by push Not; exact ⟨hx, hx1⟩)]; positivity
/-- C220: triangular, from the minimum to the maximum -/
theorem C220_triangular_support {a p q : F64} {m u v : ℝ} {d : Triangular} (h : Triangular.new a p q = .ok d) (ha : a.Is m) (hp : p.Is u) (hq : q.Is v) :
    SupportedOn d.space.points (Law (triangularPDF m (m + u + v) (m + u))) := by
  obtain ⟨hu, hv, ⟨h1, h2⟩, -⟩ := C76_triangular_partial h ha hp hq
  have e : d.space.points = Set.Icc m (m + u + v) := closed_points h1 h2
  rw [e]
  refine supported_Icc (tri_density (by linarith) (by linarith)).2 _ _ (fun x hx => ?_) fun x hx hx1 => ?_
  · unfold triangularPDF
    rcases hx with hx | hx
    · rw [if_pos hx]
    · rw [if_neg (by linarith), if_neg (by linarith), if_neg (by linarith), if_neg (by linarith)]
  · have hw : 0 < m + u + v - m := by linarith
    unfold triangularPDF
    rw [if_neg hx.le.not_gt]
    split_ifs with c1 c2
    · have := sub_pos.2 hx; have : 0 < m + u - m := by linarith
      positivity
    · positivity
    · have := sub_pos.2 hx1; have : 0 < m + u + v - (m + u) := by linarith
      positivity
    · linarith
/-- C220: continuous uniform -/
theorem C220_uniform_support {a b : F64} {m s : ℝ} {d : UniformF} (h : UniformF.new a b = .ok d) (ha : a.Is m) (hb : b.Is s) :
    SupportedOn d.space.points (Law (uniformPDF m (m + s))) := by
  obtain ⟨h0, rfl⟩ := UniformF.new_ok.1 h
  have hs : 0 < s := pos_of_lt h0 hb
  have e : (UniformF.space ⟨a, b, 1 / b⟩).points = Set.Icc m (m + s) := closed_points ha (ha.add hb)
  rw [e]
  refine supported_Icc (uniform_density hs).2 _ _ (fun x hx => if_neg (by rintro ⟨u, v⟩; rcases hx with hx | hx <;> linarith)) fun x hx hx1 => ?_
  unfold uniformPDF; rw [if_pos ⟨hx.le, hx1.le⟩]
  have : 0 < m + s - m := by linarith
  positivity

/-! ### where `support()` is wrong -/

/-- C220 is violated by the generalised Pareto distribution, for all its parameters: `support()` is the whole line, the law
has no mass below `mu` -/
theorem C220_gpd_support_violated {a b c : F64} {m s z : ℝ} {d : GeneralisedPareto} (h : GeneralisedPareto.new a b c = .ok d) (_ : a.Is m)
    (hb : b.Is s) (hc : c.Is z) : ¬ SupportedOn d.support.points (Law (gpdPDF m s z)) ∧ SupportedOn (Set.Ici m) (Law (gpdPDF m s z)) := by
  have hs : 0 < s := pos_of_lt (GeneralisedPareto.new_ok.1 h).1 hb
  have hz : 0 < z := pos_of_lt (GeneralisedPareto.new_ok.1 h).2.1 hc
  have key : SupportedOn (Set.Ici m) (Law (gpdPDF m s z)) := by
    refine supported_Ici (gpd_density hs hz).2 m (fun x hx => if_pos hx) fun x hx => ?_
    have := sub_pos.2 hx
    unfold gpdPDF; rw [if_neg hx.le.not_gt]; positivity
  exact ⟨not_supported isOpen_Iio (Set.nonempty_Iio (a := m)) (Set.subset_univ _) (by have := key.1; rwa [Set.compl_Ici] at this), key⟩

/-- C220 is violated by the generalised extreme value distribution, for all its parameters: `support()` is the whole line, the law has no mass
below `mu - sigma/zeta` -/
theorem C220_gev_support_violated {a b c : F64} {m s z : ℝ} {d : GeneralisedExtremeValue} (h : GeneralisedExtremeValue.new a b c = .ok d)
    (_ : a.Is m) (hb : b.Is s) (hc : c.Is z) :
    ¬ SupportedOn d.support.points (Law (gevPDF m s z)) ∧ SupportedOn (Set.Ici (m - s / z)) (Law (gevPDF m s z)) := by
  have hs : 0 < s := pos_of_lt (GeneralisedExtremeValue.new_ok.1 h).1 hb
  have hz : 0 < z := pos_of_lt (GeneralisedExtremeValue.new_ok.1 h).2.1 hc
  have key : SupportedOn (Set.Ici (m - s / z)) (Law (gevPDF m s z)) := by
    refine supported_Ici (gev_density hs hz).2 _ (fun x hx => if_pos hx.le) fun x hx => ?_
    have h1 : 0 < 1 + z * ((x - m) / s) := by
      have h2 : z * (-(s / z) / s) = -1 := by field_simp
      have h3 : -(s / z) / s < (x - m) / s := (div_lt_div_iff_of_pos_right hs).2 (by linarith)
      nlinarith
    unfold gevPDF; rw [if_neg hx.not_ge]; positivity
  exact ⟨not_supported isOpen_Iio (Set.nonempty_Iio (a := m - s / z)) (Set.subset_univ _) (by have := key.1; rwa [Set.compl_Ici] at this), key⟩

/-- C220 is violated by every degenerate distribution: its law is a point mass, `support()` is the whole line (all integers) -/
theorem C220_degenerate_support_violated {a : F64} {k : ℝ} (_ : a.Is k) (j : ℤ) :
    ¬ SupportedOn (DegenerateF.new a).support.points (Measure.dirac k) ∧
    ¬ SupportedOnD (DegenerateI.new j).support (fun i => if i = j then (1:ℝ) else 0) := by
  refine ⟨not_supported isOpen_Iio (Set.nonempty_Iio (a := k)) (Set.subset_univ _) ?_, fun hs => ?_⟩
  · rw [Measure.dirac_apply' _ measurableSet_Iio]; simp
  · have := (hs (j + 1)).2 (Set.mem_univ _)
    simp at this

/-! ### several dimensions -/

/-- a normal law with invertible covariance charges every open set -/
theorem gaussian_support_of {n : ℕ} (m : Fin n → ℝ) {L M : Matrix (Fin n) (Fin n) ℝ} (hL : L * Lᵀ = M) (hdet : L.det ≠ 0) :
    SupportedOn Set.univ (multivariateGaussian (WithLp.toLp 2 m) M) := by
  refine ⟨by simp, fun U hU hne _ => ?_⟩
  rw [← affine_law m L M hL, Measure.map_apply (by fun_prop) hU.measurableSet]
  have : (gaussianReal 0 1).IsOpenPosMeasure := by
    have h1 : gaussianReal 0 1 = Law (gaussianPDFReal 0 1) := by rw [gaussianReal_of_var_ne_zero 0 one_ne_zero]; rfl
    have h2 := normal_density 0 one_pos
    rw [Real.toNNReal_one] at h2
    refine ⟨fun V hV hVne => ?_⟩
    rw [h1]
    exact ((supported_univ h2.2 fun x => gaussianPDFReal_pos _ _ _ one_ne_zero).2 V hV hVne (Set.subset_univ _)).ne'
  refine IsOpen.measure_pos _ (hU.preimage ?_) ?_
  · exact (PiLp.continuous_toLp 2 _).comp (continuous_const.add (continuous_const.matrix_mulVec continuous_id))
  · obtain ⟨x, hx⟩ := hne
    refine ⟨L⁻¹ *ᵥ (WithLp.ofLp x - m), ?_⟩
    have hdu : IsUnit L.det := hdet.isUnit
    show WithLp.toLp 2 (m + L *ᵥ (L⁻¹ *ᵥ (WithLp.ofLp x - m))) ∈ U
    rw [mulVec_mulVec, mul_nonsing_inv L hdu, one_mulVec, add_sub_cancel]
    exact hx

theorem gaussian_support {n : ℕ} (m : Fin n → ℝ) {M : Matrix (Fin n) (Fin n) ℝ} (hM : M.PosDef) :
    SupportedOn Set.univ (multivariateGaussian (WithLp.toLp 2 m) M) := by
  obtain ⟨L, hL, hdet⟩ := root_of_posDef hM
  exact gaussian_support_of m hL hdet.ne'

/-- a normal law with singular covariance lives on a hyperplane -/
theorem gaussian_singular {n : ℕ} (m : Fin n → ℝ) {A M : Matrix (Fin n) (Fin n) ℝ} (hA : A * Aᵀ = M) (hdet : M.det = 0) :
    ¬ SupportedOn Set.univ (multivariateGaussian (WithLp.toLp 2 m) M) := by
  have hd : A.det = 0 := by rw [← hA, det_mul, det_transpose] at hdet; exact mul_self_eq_zero.1 hdet
  obtain ⟨w, hw, hwA⟩ := exists_vecMul_eq_zero_iff.2 hd
  obtain ⟨i, hi⟩ := Function.ne_iff.1 hw
  refine not_supported (U := {x : EuclideanSpace ℝ (Fin n) | w ⬝ᵥ (WithLp.ofLp x) ≠ w ⬝ᵥ m}) ?_ ?_ (Set.subset_univ _) ?_
  · refine isOpen_ne_fun ?_ continuous_const
    exact continuous_const.dotProduct (PiLp.continuous_ofLp 2 _)
  · refine ⟨WithLp.toLp 2 (m + Pi.single i 1), ?_⟩
    show w ⬝ᵥ (m + Pi.single i 1) ≠ w ⬝ᵥ m
    rw [dotProduct_add, dotProduct_single_one]
    intro h0; exact hi (by simpa using h0)
  · rw [← affine_law m A M hA, Measure.map_apply (by fun_prop)]
    · convert measure_empty (μ := Measure.pi fun _ : Fin n => gaussianReal 0 1)
      refine Set.eq_empty_of_forall_notMem fun z hz => hz ?_
      show w ⬝ᵥ (m + A *ᵥ z) = w ⬝ᵥ m
      rw [dotProduct_add, dotProduct_mulVec, hwA, zero_dotProduct, add_zero]
    · refine IsOpen.measurableSet (isOpen_ne_fun ?_ continuous_const)
      exact continuous_const.dotProduct (PiLp.continuous_ofLp 2 _)

/-- the box of vectors, in the type of the multivariate Gaussian laws -/
def euclidBox {n : ℕ} (S : Fin n → RealSpace) : Set (EuclideanSpace ℝ (Fin n)) := {x | (WithLp.ofLp x) ∈ RealSpace.box S}

theorem euclidBox_reals {n : ℕ} : euclidBox (fun _ : Fin n => RealSpace.reals) = Set.univ := by
  ext x; exact ⟨fun _ => trivial, fun _ i => trivial⟩

/-- C220: the multivariate normal (general, diagonal, isotropic and paired): all of space -/
theorem C220_multivariate_normal_support {n : ℕ} (m : Fin n → ℝ) :
    (∀ [Lapack] [Lapack.Exact] {mu : Fin n → F64} {S : Fin n → Fin n → F64} {M : Matrix (Fin n) (Fin n) ℝ} {d : MvNormal n},
      MvNormal.new mu S = .ok d → (∀ i, (mu i).Is (m i)) → (∀ i j, (S i j).Is (M i j)) → M.PosDef →
      SupportedOn (euclidBox d.support) (multivariateGaussian (WithLp.toLp 2 m) M)) ∧
    (∀ {mu S : Fin n → F64} {v : Fin n → ℝ} {d : DiagNormal n}, DiagNormal.new mu S = .ok d → (∀ i, (mu i).Is (m i)) → (∀ i, (S i).Is (v i)) →
      SupportedOn (euclidBox d.support) (multivariateGaussian (WithLp.toLp 2 m) (diagonal v))) ∧
    (∀ {mu : Fin n → F64} {S : F64} {v : ℝ} {d : IsoNormal n}, IsoNormal.new mu S = .ok d → (∀ i, (mu i).Is (m i)) → S.Is v →
      SupportedOn (euclidBox d.support) (multivariateGaussian (WithLp.toLp 2 m) (diagonal fun _ => v))) := by
  refine ⟨fun h hm hS hM => ?_, fun h hm hS => ?_, fun h hm hS => ?_⟩
  · unfold MvNormal.support; rw [euclidBox_reals]; exact gaussian_support m hM
  · unfold DiagNormal.support; rw [euclidBox_reals]; exact gaussian_support m (PosDef.diagonal (diag_facts h hS).1)
  · unfold IsoNormal.support; rw [euclidBox_reals]; exact gaussian_support m (PosDef.diagonal fun _ => (iso_facts h hS).1)

/-- C220: the pair of independent normals, the plane -/
theorem C220_paired_normal_support {mu S : Fin 2 → F64} {m s : Fin 2 → ℝ} {d : PairedNormal} (h : PairedNormal.new mu S = .ok d)
    (_ : ∀ i, (mu i).Is (m i)) (hS : ∀ i, (S i).Is (s i)) :
    SupportedOn (euclidBox d.support) (multivariateGaussian (WithLp.toLp 2 m) (diagonal s)) := by
  obtain ⟨hp, rfl⟩ := PairedNormal.new_ok.1 h
  unfold PairedNormal.support; rw [euclidBox_reals]
  exact gaussian_support m (PosDef.diagonal fun i => pos_of_lt (hp i) (hS i))

/-- C220: the bivariate normal with correlation strictly between -1 and 1, the plane -/
theorem C220_bivariate_normal_support_partial {mu S : Fin 2 → F64} {rho : F64} {m s : Fin 2 → ℝ} {r : ℝ} {d : BvNormal}
    (h : BvNormal.new mu S rho = .ok d) (hm : ∀ i, (mu i).Is (m i)) (hS : ∀ i, (S i).Is (s i)) (hr : rho.Is r) (h1 : |r| < 1) :
    SupportedOn (euclidBox d.support) (multivariateGaussian (WithLp.toLp 2 m) (bvCov s r)) := by
  obtain ⟨A, C, hC, hA, -⟩ := C48_bivariate_sample h hm hS hr
  obtain ⟨hp, -, -, rfl⟩ := BvNormal.new_ok.1 h
  have hs : ∀ i, 0 < s i := fun i => pos_of_lt (hp i) (hS i)
  have e : C = bvCov s r := by ext i j; exact (hC i j).eq (bv_cov_is hS hr hs i j)
  unfold BvNormal.support; rw [euclidBox_reals]
  refine gaussian_support_of m (e ▸ hA) fun hd => ?_
  have h2 : C.det = 0 := by rw [← hA, det_mul, hd, zero_mul]
  rw [e, bvCov_det hs] at h2
  have h3 : r ^ 2 < 1 := by rw [← sq_abs]; nlinarith [abs_nonneg r]
  have := mul_pos (mul_pos (hs 0) (hs 1)) (sub_pos.2 h3)
  exact this.ne' h2

/-- C220 is violated by the bivariate normal with correlation 1 or -1 (accepted by the constructor): its law lives on a line, `support()` is
the plane -/
theorem C220_bivariate_normal_support_violated {mu S : Fin 2 → F64} {rho : F64} {m s : Fin 2 → ℝ} {r : ℝ} {d : BvNormal}
    (h : BvNormal.new mu S rho = .ok d) (hm : ∀ i, (mu i).Is (m i)) (hS : ∀ i, (S i).Is (s i)) (hr : rho.Is r) (h1 : |r| = 1) :
    ¬ SupportedOn (euclidBox d.support) (multivariateGaussian (WithLp.toLp 2 m) (bvCov s r)) := by
  obtain ⟨A, C, hC, hA, -⟩ := C48_bivariate_sample h hm hS hr
  obtain ⟨hp, -, -, rfl⟩ := BvNormal.new_ok.1 h
  have hs : ∀ i, 0 < s i := fun i => pos_of_lt (hp i) (hS i)
  have e : C = bvCov s r := by ext i j; exact (hC i j).eq (bv_cov_is hS hr hs i j)
  unfold BvNormal.support; rw [euclidBox_reals]
  refine gaussian_singular m (e ▸ hA) ?_
  rw [bvCov_det hs, ← sq_abs, h1]; ring

/-- C220: the multivariate log-normal, the positive orthant -/
theorem C220_multivariate_lognormal_support {n : ℕ} (m : Fin n → ℝ) {M : Matrix (Fin n) (Fin n) ℝ} (hM : M.PosDef) :
    SupportedOn (RealSpace.box (MvLogNormal.support n)) (expLaw (multivariateGaussian (WithLp.toLp 2 m) M)) := by
  have hmeas : Measurable fun x : EuclideanSpace ℝ (Fin n) => fun i => Real.exp (x i) := by fun_prop
  have hcont : Continuous fun x : EuclideanSpace ℝ (Fin n) => fun i => Real.exp (x i) := by fun_prop
  have hI : MeasurableSet (RealSpace.box (MvLogNormal.support n)) := by
    have : RealSpace.box (MvLogNormal.support n) = Set.univ.pi fun _ => Set.Ioi 0 := by
      ext x; exact ⟨fun h i _ => h i, fun h i => h i trivial⟩
    rw [this]; exact MeasurableSet.univ_pi fun _ => measurableSet_Ioi
  refine ⟨?_, fun U hU hne hUI => ?_⟩
  · unfold expLaw
    rw [Measure.map_apply hmeas hI.compl]
    convert measure_empty (μ := multivariateGaussian (WithLp.toLp 2 m) M)
    exact Set.eq_empty_of_forall_notMem fun z hz => hz fun i => Real.exp_pos _
  · unfold expLaw
    rw [Measure.map_apply hmeas hU.measurableSet]
    refine (gaussian_support m hM).2 _ (hU.preimage hcont) ?_ (Set.subset_univ _)
    obtain ⟨y, hy⟩ := hne
    refine ⟨WithLp.toLp 2 fun i => Real.log (y i), ?_⟩
    show (fun i => Real.exp (Real.log (y i))) ∈ U
    have e : (fun i => Real.exp (Real.log (y i))) = y := by
      funext i; exact Real.exp_log (hUI hy i)
    rw [e]; exact hy

/-- C220 is violated by every Dirichlet distribution of two or more categories: its law lives on the simplex, `support()` is the unit cube -/
theorem C220_dirichlet_support_violated {n : ℕ} {al : Fin (n + 2) → F64} {a : Fin (n + 2) → ℝ} (_ : ∀ i, (al i).Is (a i)) (ha : ∀ i, 0 < a i) :
    ¬ SupportedOn (RealSpace.box (Dirichlet.newUnchecked al).support) (dirichletLaw a) := by
  have hc : Continuous fun x : Fin (n + 2) → ℝ => ∑ i, x i := by fun_prop
  refine not_supported (U := (Set.univ.pi fun _ => Set.Ioo 0 1) ∩ {x | ∑ i, x i < 1})
    ((isOpen_set_pi Set.finite_univ fun _ _ => isOpen_Ioo).inter (isOpen_lt hc continuous_const)) ?_ ?_ ?_
  · have hn : (0:ℝ) < n + 2 := by positivity
    refine ⟨fun _ => 1 / (2 * (n + 2)), fun i _ => ⟨by positivity, ?_⟩, ?_⟩
    · rw [div_lt_one (by positivity)]; linarith
    · show ∑ _ : Fin (n + 2), (1:ℝ) / (2 * (n + 2)) < 1
      rw [Finset.sum_const, Finset.card_univ, Fintype.card_fin, nsmul_eq_mul]
      push_cast
      field_simp; norm_num
  · rintro x ⟨hx, -⟩ i
    show x i ∈ (RealSpace.closed 0 1).points
    rw [unit_points]; exact ⟨(hx i trivial).1.le, (hx i trivial).2.le⟩
  · refine measure_mono_null ?_ (ae_iff.1 (dirichlet_ae ha))
    rintro x ⟨-, hx⟩ hx'
    exact absurd hx'.2 (ne_of_lt hx)

/-! ### discrete laws -/

/-- C220: the discrete uniform, the integers from `lb` to `lb + width` -/
theorem C220_uniform_int_support (pr : Profile) {lb : ℤ} {w : ℕ} {d : UniformI} (hf : UniformI.Fits lb w) (h : UniformI.new pr lb w = .ok (.ok d)) :
    ∃ l u, d.support pr = .ok (l, u) ∧ SupportedOnD {k | l ≤ k ∧ k ≤ u} (uniformPMF lb (lb + w)) := by
  refine ⟨_, _, (C54_uniform_int_partial hf h).1, fun k => ?_⟩
  unfold uniformPMF
  split_ifs with hk
  · refine ⟨fun _ => hk, fun _ => ?_⟩
    have : (0:ℝ) ≤ ((lb + w - lb : ℤ) : ℝ) := by push_cast; simp
    positivity
  · exact ⟨fun h => absurd h (lt_irrefl _), fun h => absurd h hk⟩

/-- C220: Bernoulli with 0 < p < 1 -/
theorem C220_bernoulli_support_partial {a : F64} {p : ℝ} {d : Bernoulli} (_ : Bernoulli.new a = .ok d) (_ : a.Is p) (h0 : 0 < p) (h1 : p < 1) :
    SupportedOnD {k | k ∈ d.support} (bernPMF p) := by
  intro k
  have := sub_pos.2 h1
  cases k <;> simp [bernPMF, Bernoulli.support, h0, h1]

/-- C220 is violated by the Bernoulli distributions with p = 0 and p = 1: one of the two values is impossible -/
theorem C220_bernoulli_support_violated {a : F64} {p : ℝ} {d : Bernoulli} (_ : Bernoulli.new a = .ok d) (_ : a.Is p) (hp : p = 0 ∨ p = 1) :
    ¬ SupportedOnD {k | k ∈ d.support} (bernPMF p) := by
  intro hs
  have h1 := (hs true).2 (by simp [Bernoulli.support])
  have h2 := (hs false).2 (by simp [Bernoulli.support])
  rcases hp with rfl | rfl <;> simp [bernPMF] at h1 h2

/-- C220: geometric with 0 < p < 1, all the naturals -/
theorem C220_geometric_support_partial {a : F64} {p : ℝ} {d : Geometric} (_ : Geometric.new a = .ok d) (_ : a.Is p) (h0 : 0 < p) (h1 : p < 1) :
    SupportedOnD d.support (geomPMF p) := by
  intro k
  have := sub_pos.2 h1
  refine ⟨fun _ => Set.mem_univ _, fun _ => ?_⟩
  unfold geomPMF; positivity

/-- C220 is violated by the geometric distributions with p = 1 and p = 0: only 0 is possible, or nothing is -/
theorem C220_geometric_support_violated {a : F64} {p : ℝ} {d : Geometric} (_ : Geometric.new a = .ok d) (_ : a.Is p) (hp : p = 0 ∨ p = 1) :
    ¬ SupportedOnD d.support (geomPMF p) := by
  intro hs
  have h1 := (hs 1).2 (Set.mem_univ _)
  rcases hp with rfl | rfl <;> simp [geomPMF] at h1
end

/-! ### non-vacuity -/
section
attribute [local instance] exactFP exactFP_exact
example : ∃ d, BetaDist.new (fin 2) (fin 3) = .ok d ∧ SupportedOn d.space.points (Law (betaPDFReal 2 3)) := by
  obtain ⟨d, h⟩ : ∃ d, BetaDist.new (fin 2) (fin 3) = .ok d := ⟨_, BetaDist.new_ok.2 ⟨lt_of_pos two_pos (Is.fin 2), lt_of_pos three_pos (Is.fin 3), rfl⟩⟩
  exact ⟨d, h, C220_beta_support h (Is.fin 2) (Is.fin 3)⟩
example : ∃ d, BvNormal.new ![fin 0, fin 1] ![fin 1, fin 4] (fin 1) = .ok d ∧
    ¬ SupportedOn (euclidBox d.support) (multivariateGaussian (WithLp.toLp 2 ![0, 1]) (bvCov ![1, 4] 1)) := by
  obtain ⟨d, h⟩ : ∃ d, BvNormal.new ![fin 0, fin 1] ![fin 1, fin 4] (fin 1) = .ok d :=
    ⟨_, BvNormal.new_ok.2 ⟨fun i => by fin_cases i <;> exact fin_lt_fin.2 (by norm_num), fin_le_fin.2 (by norm_num), fin_le_fin.2 (by norm_num), rfl⟩⟩
  exact ⟨d, h, C220_bivariate_normal_support_violated h (fun i => by fin_cases i <;> exact Is.fin _) (fun i => by fin_cases i <;> exact Is.fin _)
    (Is.fin 1) (by norm_num)⟩
example : ∃ d, GeneralisedPareto.new (fin 1) (fin 2) (fin 3) = .ok d ∧ ¬ SupportedOn d.support.points (Law (gpdPDF 1 2 3)) := by
  obtain ⟨d, h⟩ : ∃ d, GeneralisedPareto.new (fin 1) (fin 2) (fin 3) = .ok d :=
    ⟨_, GeneralisedPareto.new_ok.2 ⟨lt_of_pos two_pos (Is.fin 2), lt_of_pos three_pos (Is.fin 3), rfl⟩⟩
  exact ⟨d, h, (C220_gpd_support_violated h (Is.fin 1) (Is.fin 2) (Is.fin 3)).1⟩
end
end Rstat
