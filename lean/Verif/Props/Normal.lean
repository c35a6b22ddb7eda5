import Verif.Model.Normal
import Verif.Lemmas.Consts
import Verif.Lemmas.Constraints
import Verif.Lemmas.Gaussian
import Verif.Lemmas.Positive
import Mathlib.Probability.Moments.Variance
import Mathlib.Analysis.Real.Pi.Bounds

/-! Properties C38–C44: the univariate normal. -/
set_option linter.unusedSectionVars false
namespace Rstat
open F64 Consts Spec MeasureTheory ProbabilityTheory Real Set

namespace UvNormal

theorem new_ok {a b : F64} {d : UvNormal} : UvNormal.new a b = .ok d ↔ 0 < b ∧ d = ⟨a, b⟩ := by
  simp only [UvNormal.new, exc_bind_ok, Loc.new_ok, Covariance.isotropic_ok]
  constructor
  · rintro ⟨_, rfl, _, ⟨h0, rfl⟩, h⟩; exact ⟨h0, by cases h; rfl⟩
  · rintro ⟨h0, rfl⟩; exact ⟨_, rfl, _, ⟨h0, rfl⟩, rfl⟩

end UvNormal


section
variable [FP] [FP.Exact] {a b : F64} {μ v : ℝ} {d : UvNormal}

theorem normal_z_is (ha : d.mu.Is μ) (hb : d.Sigma.Is v) (hv : 0 < v) {x : F64} {t : ℝ} (hx : x.Is t) :
    (d.z x).Is ((t - μ) / √v) := by
  unfold UvNormal.z; fev

theorem normal_pdf_is (ha : d.mu.Is μ) (hb : d.Sigma.Is v) (hv : 0 < v) {x : F64} {t : ℝ} (hx : x.Is t) :
    (d.pdf x).Is (gaussianPDFReal μ v.toNNReal t) := by
  have hz := normal_z_is ha hb hv hx
  have hs : √v ≠ 0 := (sqrt_pos.2 hv).ne'
  unfold UvNormal.pdf
  dsimp only
  refine Is.congr (r := rexp (-((t - μ) / √v) * ((t - μ) / √v) / 2) / (√(π * 2) * √v)) (by fev) ?_
  simp only [gaussianPDFReal]
  have h3 : √(2 * π * v) = √(2 * π) * √v := Real.sqrt_mul (by positivity) v
  have e : -((t - μ) / √v) * ((t - μ) / √v) / 2 = -(t - μ) ^ 2 / (2 * v) := by
    have : √v * √v = v := Real.mul_self_sqrt hv.le
    rw [neg_mul, div_mul_div_comm, this]; ring
  rw [Real.coe_toNNReal _ hv.le, h3, e, mul_comm π 2, div_eq_inv_mul]

theorem normal_cdf_is (ha : d.mu.Is μ) (hb : d.Sigma.Is v) (hv : 0 < v) {x : F64} {t : ℝ} (hx : x.Is t) :
    ((d.cdf x).val).Is (Phi ((t - μ) / √v)) := by
  have hz := (normal_z_is ha hb hv hx).norm
  rcases hx with rfl | ⟨rfl, rfl⟩ <;> exact hz

/-- C38: a constructed normal is the Gaussian measure with its parameters. Density, distribution function (also at the
infinities), mean, variance, skewness, quantile, `z` and `precision` are those of Mathlib's `gaussianReal`. -/
theorem C38_normal_is_gaussian (h : UvNormal.new a b = .ok d) (ha : a.Is μ) (hb : b.Is v) :
    0 < v ∧
    Computes d.pdf (gaussianPDFReal μ v.toNNReal) univ ∧
    Computes (fun x => (d.cdf x).val) (cdf (gaussianReal μ v.toNNReal)) univ ∧
    d.cdf .ninf = ⟨0⟩ ∧ d.cdf .pinf = ⟨1⟩ ∧
    IsDensityOf (gaussianPDFReal μ v.toNNReal) (cdf (gaussianReal μ v.toNNReal)) ∧
    (UvNormal.mean d).Is (∫ x, x ∂gaussianReal μ v.toNNReal) ∧
    (UvNormal.variance d).Is (Var[id; gaussianReal μ v.toNNReal]) ∧
    UvNormal.skewness.Is (centralMoment id 3 (gaussianReal μ v.toNNReal) / √v ^ 3) ∧
    (∀ (q : F64) (p : ℝ), 0 < p → p < 1 → q.Is p →
      ∃ x, (d.quantile ⟨q⟩).Is x ∧ cdf (gaussianReal μ v.toNNReal) x = p) ∧
    Computes d.z (fun x => (x - μ) / √v) univ ∧
    d.precision.Is (1 / v) ∧ d.width.Is (2 / v) := by
  obtain ⟨h0, rfl⟩ := UvNormal.new_ok.1 h
  have hv : 0 < v := pos_of_lt h0 hb
  have ecdf : (cdf (gaussianReal μ v.toNNReal) : ℝ → ℝ) = fun x => Phi ((x - μ) / √v) := by
    ext x; exact cdf_gaussian μ hv x
  refine ⟨hv, fun x t _ hx => normal_pdf_is ha hb hv hx, fun x t _ hx => ?_, rfl, rfl, ?_, ?_, ?_, ?_, ?_,
    fun x t _ hx => normal_z_is ha hb hv hx, ?_, ?_⟩
  · rw [ecdf]; exact normal_cdf_is ha hb hv hx
  · rw [ecdf]; exact (normal_density μ hv).2
  · rw [integral_id_gaussianReal]; exact ha
  · rw [variance_id_gaussianReal, Real.coe_toNNReal _ hv.le]; exact hb
  · rw [gaussian_skew μ hv, zero_div]; exact Is.zero
  · intro q p hp hp1 hq
    obtain ⟨z, hz⟩ := Phi_surj hp hp1
    refine ⟨μ + √v * z, ?_, ?_⟩
    · have : (q.normInv).Is z := Is.normInv (by rw [hz]; exact hq)
      unfold UvNormal.quantile; fev
    · rw [ecdf]; simp only [add_sub_cancel_left]
      rw [mul_div_cancel_left₀ _ (sqrt_pos.2 hv).ne', hz]
  · unfold UvNormal.precision; fev
  · unfold UvNormal.width UvNormal.precision
    refine Is.congr (r := 2 * (1 / v)) (by fev) (by ring)

/-- C38: sampling is an affine image of a standard normal draw whose law is exactly the Gaussian of the parameters;
exactly one draw is consumed. -/
theorem C38_normal_sample_law (h : UvNormal.new a b = .ok d) (ha : a.Is μ) (hb : b.Is v) {σ : Type} (g : NormalRng σ)
    (s : σ) : (d.sample g s).2 = (g.draw s).2 ∧
    (∀ z : ℝ, (g.draw s).1.Is z → ∃ y, (d.sample g s).1 = .ok y ∧ y.Is (μ + √v * z)) ∧
    (gaussianReal 0 1).map (fun z => μ + √v * z) = gaussianReal μ v.toNNReal := by
  obtain ⟨h0, rfl⟩ := UvNormal.new_ok.1 h
  have hv : 0 < v := pos_of_lt h0 hb
  have hs : (F64.sqrt b).Is (√v) := hb.sqrt hv.le
  unfold UvNormal.sample
  rw [if_pos hs.isFinite]
  refine ⟨rfl, fun z hz => ⟨_, rfl, ?_⟩, ?_⟩
  · fev
  · rw [gaussian_eq_map μ hv]; congr 1; ext z; ring

end

section
attribute [local instance] exactFP exactFP_exact
example : ∃ d, UvNormal.new (fin 1) (fin 4) = .ok d ∧ d.mean = fin 1 := ⟨_, UvNormal.new_ok.2 ⟨fin_lt_fin.2 (by norm_num), rfl⟩, rfl⟩
end

/-! ### C39 -/

/-- C39 (violated): for every normal, `kurtosis()` is not the fourth standardised moment, and `excess_kurtosis()` is not
that minus 3. -/
theorem C39_kurtosis_violated [FP] [FP.Exact] {a b : F64} {μ v : ℝ} {d : UvNormal} (h : UvNormal.new a b = .ok d)
    (_ : a.Is μ) (hb : b.Is v) :
    ¬ UvNormal.kurtosis.Is (centralMoment id 4 (gaussianReal μ v.toNNReal) / v ^ 2) ∧
    ¬ UvNormal.excessKurtosis.Is (centralMoment id 4 (gaussianReal μ v.toNNReal) / v ^ 2 - 3) := by
  obtain ⟨h0, rfl⟩ := UvNormal.new_ok.1 h
  have hv : 0 < v := pos_of_lt h0 hb
  rw [gaussian_kurt μ hv, mul_div_assoc, div_self (by positivity), mul_one]
  constructor
  · intro hk
    have := hk.eq (Is.zero : UvNormal.kurtosis.Is 0); norm_num at this
  · intro hk
    have := hk.eq ((Is.num 3).neg : UvNormal.excessKurtosis.Is (-3)); norm_num at this

/-- C39 (partial): what holds is that both values are exactly 3 too small, so that `excess = kurtosis − 3`. Missing:
agreement with the moments themselves, which is false. -/
theorem C39_kurtosis_partial [FP] [FP.Exact] {a b : F64} {μ v : ℝ} {d : UvNormal} (h : UvNormal.new a b = .ok d)
    (_ : a.Is μ) (hb : b.Is v) :
    UvNormal.kurtosis.Is (centralMoment id 4 (gaussianReal μ v.toNNReal) / v ^ 2 - 3) ∧
    UvNormal.excessKurtosis.Is (centralMoment id 4 (gaussianReal μ v.toNNReal) / v ^ 2 - 6) := by
  obtain ⟨h0, rfl⟩ := UvNormal.new_ok.1 h
  have hv : 0 < v := pos_of_lt h0 hb
  rw [gaussian_kurt μ hv, mul_div_assoc, div_self (by positivity), mul_one]
  exact ⟨Is.zero.congr (by norm_num), ((Is.num 3).neg : UvNormal.excessKurtosis.Is (-3)).congr (by norm_num)⟩

/-! ### C40 -/

theorem F64.add_comm' [FP] (a b : F64) : a + b = b + a := by
  show F64.add a b = F64.add b a
  cases a <;> cases b <;> simp [F64.add, _root_.add_comm]

/-- C40: the convolution of two normals has the law of the sum of independent draws -/
theorem C40_convolve_law [FP] [FP.Exact] {a b a' b' : F64} {μ v μ' v' : ℝ} {d e : UvNormal}
    (h : UvNormal.new a b = .ok d) (h' : UvNormal.new a' b' = .ok e)
    (ha : a.Is μ) (hb : b.Is v) (ha' : a'.Is μ') (hb' : b'.Is v') :
    ∃ c m w, d.convolve e = .ok c ∧ (UvNormal.mean c).Is m ∧ (UvNormal.variance c).Is w ∧ 0 < w ∧
      gaussianReal m w.toNNReal = (gaussianReal μ v.toNNReal).conv (gaussianReal μ' v'.toNNReal) := by
  obtain ⟨h0, rfl⟩ := UvNormal.new_ok.1 h
  obtain ⟨h0', rfl⟩ := UvNormal.new_ok.1 h'
  have hv := pos_of_lt h0 hb
  have hv' := pos_of_lt h0' hb'
  refine ⟨_, μ + μ', v + v', rfl, ha.add ha', hb.add hb', by positivity, ?_⟩
  rw [gaussianReal_conv_gaussianReal, Real.toNNReal_add hv.le hv'.le]

/-- C40: convolution is commutative, bit for bit, in every arithmetic -/
theorem C40_convolve_comm [FP] (d e : UvNormal) : d.convolve e = e.convolve d := by
  unfold UvNormal.convolve UvNormal.newUnchecked UvNormal.variance
  rw [F64.add_comm' d.mu, F64.add_comm' d.Sigma]

/-- C40: convolution is associative in exact arithmetic: both orders succeed with the same mean and variance -/
theorem C40_convolve_assoc [FP] [FP.Exact] {d e f : UvNormal} {μ₁ μ₂ μ₃ v₁ v₂ v₃ : ℝ}
    (h1 : d.mu.Is μ₁) (h2 : e.mu.Is μ₂) (h3 : f.mu.Is μ₃) (k1 : d.Sigma.Is v₁) (k2 : e.Sigma.Is v₂) (k3 : f.Sigma.Is v₃) :
    ∃ l r m w, (d.convolve e).bind (fun c => UvNormal.convolve c f) = .ok l ∧
      (e.convolve f).bind (fun c => UvNormal.convolve d c) = .ok r ∧
      (UvNormal.mean l).Is m ∧ (UvNormal.mean r).Is m ∧ (UvNormal.variance l).Is w ∧ (UvNormal.variance r).Is w :=
  ⟨_, _, μ₁ + μ₂ + μ₃, v₁ + v₂ + v₃, rfl, rfl, (h1.add h2).add h3, (h1.add (h2.add h3)).congr (by ring),
    (k1.add k2).add k3, (k1.add (k2.add k3)).congr (by ring)⟩

section
attribute [local instance] exactFP exactFP_exact
example : ∃ c, UvNormal.convolve ⟨fin 1, fin 4⟩ ⟨fin 2, fin 5⟩ = .ok c ∧ c.Sigma.Is 9 :=
  ⟨_, rfl, ((Is.fin 4).add (Is.fin 5)).congr (by norm_num)⟩
end

/-! ### C41–C43 -/

/-- the log-likelihood of the Gaussian density -/
theorem normal_logLik (rs : List ℝ) (μ : ℝ) {v : ℝ} (hv : 0 < v) :
    logLik (gaussianPDFReal μ v.toNNReal) rs =
      -(rs.length / 2 * Real.log (2 * π * v)) - (rs.map fun x => (x - μ) ^ 2).sum / (2 * v) := by
  unfold logLik
  induction rs with
  | nil => simp
  | cons x rs ih =>
    rw [List.map_cons, List.sum_cons, ih]
    have : Real.log (gaussianPDFReal μ v.toNNReal x) = -(1 / 2 * Real.log (2 * π * v)) - (x - μ) ^ 2 / (2 * v) := by
      simp only [gaussianPDFReal]
      rw [Real.coe_toNNReal _ hv.le, Real.log_mul (by positivity) (by positivity), Real.log_exp, Real.log_inv,
        Real.log_sqrt (by positivity)]
      ring
    rw [this]
    simp only [List.length_cons, Nat.cast_add, Nat.cast_one, List.map_cons, List.sum_cons]
    ring

theorem sum_sq_is [FP] [FP.Exact] {xs : List F64} {rs : List ℝ} (hx : List.Forall₂ Is xs rs) (f : F64 → F64) (g : ℝ → ℝ)
    (hf : ∀ x r, x.Is r → (f x).Is (g r)) : (F64.sum (xs.map f)).Is (rs.map g).sum := by
  refine Is.sum ?_
  induction hx with
  | nil => exact .nil
  | cons h _ ih => exact .cons (hf _ _ h) ih

section
variable [FP] [FP.Exact] {a b : F64} {μ v : ℝ} {d : UvNormal} {xs : List F64} {rs : List ℝ}

theorem normal_ll_is (h : UvNormal.new a b = .ok d) (ha : a.Is μ) (hb : b.Is v) (hx : List.Forall₂ Is xs rs) :
    (d.logLikelihood xs).Is (-(rs.length / 4 * Real.log (2 * π * v)) - (rs.map fun x => (x - μ) ^ 2).sum / (2 * v)) := by
  obtain ⟨h0, rfl⟩ := UvNormal.new_ok.1 h
  have hv := pos_of_lt h0 hb
  have hs := sum_sq_is hx (fun x => (x - a).powi 2 / 2 / b) (fun x => (x - μ) ^ 2 / 2 / v) (fun x r hx => by fev)
  unfold UvNormal.logLikelihood
  refine Is.congr (r := -((rs.length : ℝ) / 2) / 2 * (Real.log (π * 2) + Real.log v)
    - (rs.map fun x => (x - μ) ^ 2 / 2 / v).sum) ?_ ?_
  · dsimp only; rw [hx.length_eq]; fev
  · rw [← Real.log_mul (by positivity) (by positivity)]
    have : ∀ l : List ℝ, (l.map fun x => (x - μ) ^ 2 / 2 / v).sum = (l.map fun x => (x - μ) ^ 2).sum / (2 * v) := by
      intro l; induction l with
      | nil => simp
      | cons x l ih => simp only [List.map_cons, List.sum_cons, ih]; field_simp
    rw [this, mul_comm π 2]; ring

/-- C41 (violated): for every non-empty sample and every normal with 2πσ² ≠ 1 the reported log-likelihood is not
`Σ ln pdf(x_i)`. -/
theorem C41_loglik_violated (h : UvNormal.new a b = .ok d) (ha : a.Is μ) (hb : b.Is v) (hx : List.Forall₂ Is xs rs)
    (hne : rs ≠ []) (h2 : 2 * π * v ≠ 1) :
    ¬ (d.logLikelihood xs).Is (logLik (gaussianPDFReal μ v.toNNReal) rs) := by
  intro hk
  have hv : 0 < v := pos_of_lt (UvNormal.new_ok.1 h).1 hb
  have := hk.eq (normal_ll_is h ha hb hx)
  rw [normal_logLik rs μ hv] at this
  have hl : Real.log (2 * π * v) ≠ 0 := Real.log_ne_zero_of_pos_of_ne_one (by positivity) h2
  have hn : (rs.length : ℝ) ≠ 0 := by simpa using hne
  have h3 : (rs.length : ℝ) * Real.log (2 * π * v) = 0 := by linarith
  rcases mul_eq_zero.1 h3 with h4 | h4 <;> contradiction

/-- C41 (partial): the reported value differs from `Σ ln pdf(x_i)` by exactly `n/4 · ln(2πσ²)`; it is additive over
concatenation. Missing: equality, which is false. -/
theorem C41_loglik_partial (h : UvNormal.new a b = .ok d) (ha : a.Is μ) (hb : b.Is v) (hx : List.Forall₂ Is xs rs) :
    (d.logLikelihood xs).Is (logLik (gaussianPDFReal μ v.toNNReal) rs + rs.length / 4 * Real.log (2 * π * v)) ∧
    ∀ (ys : List F64) (ss : List ℝ), List.Forall₂ Is ys ss → ∀ l l', (d.logLikelihood xs).Is l →
      (d.logLikelihood ys).Is l' → (d.logLikelihood (xs ++ ys)).Is (l + l') := by
  have hv : 0 < v := pos_of_lt (UvNormal.new_ok.1 h).1 hb
  constructor
  · refine (normal_ll_is h ha hb hx).congr ?_
    rw [normal_logLik rs μ hv]; ring
  · intro ys ss hy l l' hl hl'
    rw [hl.eq (normal_ll_is h ha hb hx), hl'.eq (normal_ll_is h ha hb hy)]
    refine (normal_ll_is h ha hb (List.rel_append hx hy)).congr ?_
    simp only [List.length_append, List.map_append, List.sum_append]; push_cast; ring

theorem score_fold_is {m : F64} (hm : m.Is μ) (hx : List.Forall₂ Is xs rs) : ∀ (acc : F64 × F64) (r s : ℝ),
    acc.1.Is r → acc.2.Is s →
    let res := xs.foldl (fun acc x => let dd := x - m; (acc.1 + dd, acc.2 + dd * dd)) acc
    res.1.Is (r + (rs.map fun x => x - μ).sum) ∧ res.2.Is (s + (rs.map fun x => (x - μ) ^ 2).sum) := by
  induction hx with
  | nil => intro acc r s h1 h2; simpa using ⟨h1, h2⟩
  | @cons x t xs rs hxt _ ih =>
    intro acc r s h1 h2
    have hd := hxt.sub hm
    have := ih (acc.1 + (x - m), acc.2 + (x - m) * (x - m)) _ _ (h1.add hd) (h2.add (hd.mul hd))
    simp only [List.foldl_cons, List.map_cons, List.sum_cons]
    exact ⟨this.1.congr (by ring), this.2.congr (by ring)⟩

omit [FP] [FP.Exact] in
theorem deriv_sum_sq (rs : List ℝ) (m : ℝ) :
    HasDerivAt (fun m => (rs.map fun x => (x - m) ^ 2).sum) (-2 * (rs.map fun x => x - m).sum) m := by
  induction rs with
  | nil => simpa using hasDerivAt_const m (0 : ℝ)
  | cons x rs ih =>
    simp only [List.map_cons, List.sum_cons]
    have h1 := (((hasDerivAt_id m).const_sub x).pow 2).add ih
    refine HasDerivAt.congr_deriv (f := fun m => (x - m) ^ 2 + (rs.map fun x => (x - m) ^ 2).sum) h1 ?_
    simp only [id_eq]; push_cast; ring

/-- C42: `score` is the gradient of `Σ ln pdf` with respect to the mean and the standard deviation -/
theorem C42_score_gradient (h : UvNormal.new a b = .ok d) (ha : a.Is μ) (hb : b.Is v) (hx : List.Forall₂ Is xs rs) :
    ∃ gμ gσ, (d.score xs).mu.Is gμ ∧ (d.score xs).Sigma.Is gσ ∧
      HasDerivAt (fun m => logLik (gaussianPDFReal m v.toNNReal) rs) gμ μ ∧
      HasDerivAt (fun s => logLik (gaussianPDFReal μ (s ^ 2).toNNReal) rs) gσ (√v) := by
  obtain ⟨h0, rfl⟩ := UvNormal.new_ok.1 h
  have hv := pos_of_lt h0 hb
  have hs : 0 < √v := sqrt_pos.2 hv
  obtain ⟨h1, h2⟩ := score_fold_is ha hx (0, 0) 0 0 Is.zero Is.zero
  refine ⟨(0 + (rs.map fun x => x - μ).sum) / v, ((0 + (rs.map fun x => (x - μ) ^ 2).sum) / v - rs.length) / √v, ?_, ?_, ?_, ?_⟩
  · exact h1.div hb hv.ne'
  · exact (((h2.div hb hv.ne').sub (by rw [hx.length_eq]; exact Is.ofNat _)).div (hb.sqrt hv.le) hs.ne')
  · simp only [normal_logLik _ _ hv]
    have := ((deriv_sum_sq rs μ).div_const (2 * v)).const_sub (-(rs.length / 2 * Real.log (2 * π * v)))
    refine this.congr_deriv ?_
    rw [zero_add]; field_simp
  · have e : (fun s => logLik (gaussianPDFReal μ (s ^ 2).toNNReal) rs) =ᶠ[nhds (√v)] fun s =>
        -(rs.length / 2 * (Real.log (2 * π) + 2 * Real.log s)) - (rs.map fun x => (x - μ) ^ 2).sum / 2 * (s ^ 2)⁻¹ := by
      filter_upwards [Ioi_mem_nhds hs] with s hs'
      have hs' : 0 < s := hs'
      rw [normal_logLik _ _ (by positivity), Real.log_mul (by positivity) (by positivity), Real.log_pow]
      push_cast; field_simp
    refine HasDerivAt.congr_of_eventuallyEq ?_ e
    have hl := ((((Real.hasDerivAt_log hs.ne').const_mul 2).const_add (Real.log (2 * π))).const_mul ((rs.length : ℝ) / 2)).neg
    have hi := (((hasDerivAt_pow 2 (√v)).inv (by positivity)).const_mul ((rs.map fun x => (x - μ) ^ 2).sum / 2))
    refine HasDerivAt.congr_deriv (hl.sub hi) ?_
    have hq : √v ^ 2 = v := Real.sq_sqrt hv.le
    generalize √v = s at *
    subst hq
    field_simp
    push_cast; ring

section
attribute [local instance] exactFP exactFP_exact
/-- the hypotheses of C41/C42 are met by a three-point sample -/
example : ∃ d, UvNormal.new (fin 1) (fin 4) = .ok d ∧ List.Forall₂ Is [fin 1, fin 2, .negZero] [1, 2, 0] ∧ 2 * π * 4 ≠ 1 :=
  ⟨_, UvNormal.new_ok.2 ⟨fin_lt_fin.2 (by norm_num), rfl⟩, .cons (.fin _) (.cons (.fin _) (.cons .negZero .nil)),
    by nlinarith [Real.pi_pos, Real.two_le_pi]⟩
end

/-! ### C43 -/

theorem foldl_map_add (xs : List F64) (f : F64 → F64) (acc : F64) :
    (xs.map f).foldl (fun acc r => acc + r * r) acc = (xs.map fun x => f x * f x).foldl (· + ·) acc := by
  induction xs generalizing acc with
  | nil => rfl
  | cons x xs ih => simp only [List.map_cons, List.foldl_cons]; exact ih _

omit [FP] [FP.Exact] in
/-- decomposition of the sum of squares about any point -/
theorem sum_sq_decomp (rs : List ℝ) (hne : rs ≠ []) (m : ℝ) :
    (rs.map fun x => (x - m) ^ 2).sum =
      (rs.map fun x => (x - rs.sum / rs.length) ^ 2).sum + rs.length * (rs.sum / rs.length - m) ^ 2 := by
  have hn : (rs.length : ℝ) ≠ 0 := by simpa using hne
  have gen : ∀ (l : List ℝ) (c : ℝ), (l.map fun x => (x - c) ^ 2).sum = (l.map fun x => x ^ 2).sum - 2 * c * l.sum + l.length * c ^ 2 := by
    intro l c
    induction l with
    | nil => simp
    | cons x l ih => simp only [List.map_cons, List.sum_cons, List.length_cons, ih]; push_cast; ring
  rw [gen, gen]; field_simp; ring

/-- spec: empirical mean and (biased) variance -/
noncomputable def Spec.empMean (rs : List ℝ) : ℝ := rs.sum / rs.length
noncomputable def Spec.empVar (rs : List ℝ) : ℝ := (rs.map fun x => (x - empMean rs) ^ 2).sum / rs.length

theorem mle_mean_is (hx : List.Forall₂ Is xs rs) (hne : rs ≠ []) :
    (xs.foldl (fun acc x => acc + x) 0 / F64.ofNat xs.length).Is (empMean rs) := by
  have hn : (rs.length : ℝ) ≠ 0 := by simpa using hne
  rw [hx.length_eq]
  exact (Is.sum hx).div (Is.ofNat _) hn

theorem mle_var_is (hx : List.Forall₂ Is xs rs) (hne : rs ≠ []) {m : F64} {c : ℝ} (hm : m.Is c) :
    ((xs.map fun x => x - m).foldl (fun acc r => acc + r * r) 0 / F64.ofNat xs.length).Is
      ((rs.map fun x => (x - c) ^ 2).sum / rs.length) := by
  have hn : (rs.length : ℝ) ≠ 0 := by simpa using hne
  rw [hx.length_eq, foldl_map_add]
  refine Is.div ?_ (Is.ofNat _) hn
  exact sum_sq_is hx _ (fun x => (x - c) ^ 2) fun x r h => ((h.sub hm).mul (h.sub hm)).congr (by ring)

omit [FP] [FP.Exact] in
theorem sum_nonneg_list (rs : List ℝ) (c : ℝ) : 0 ≤ (rs.map fun x => (x - c) ^ 2).sum :=
  List.sum_nonneg (by intro y hy; obtain ⟨x, -, rfl⟩ := List.mem_map.1 hy; positivity)

omit [FP] [FP.Exact] in
theorem empVar_pos (rs : List ℝ) (h : ∃ x ∈ rs, ∃ y ∈ rs, x ≠ y) : 0 < empVar rs := by
  obtain ⟨x, hx, y, hy, hxy⟩ := h
  have hne : rs ≠ [] := List.ne_nil_of_mem hx
  have hn : 0 < (rs.length : ℝ) := by exact_mod_cast List.length_pos_iff.2 hne
  unfold empVar
  refine div_pos ?_ hn
  rcases (sum_nonneg_list rs (empMean rs)).lt_or_eq with h | h
  · exact h
  · exfalso
    have all : ∀ z ∈ rs, z = empMean rs := by
      intro z hz
      have h1 : (z - empMean rs) ^ 2 ≤ (rs.map fun x => (x - empMean rs) ^ 2).sum :=
        List.single_le_sum (by intro y hy; obtain ⟨x, -, rfl⟩ := List.mem_map.1 hy; positivity) _ (List.mem_map.2 ⟨z, hz, rfl⟩)
      rw [← h] at h1
      have := pow_eq_zero_iff (two_ne_zero) |>.1 (le_antisymm h1 (sq_nonneg _))
      linarith
    exact hxy ((all x hx).trans (all y hy).symm)

/-- C43: on data that are not all equal, `fit_mle` succeeds with the empirical mean and biased variance, and these
maximise the Gaussian log-likelihood among all means and all positive variances. -/
theorem C43_mle_maximises (hx : List.Forall₂ Is xs rs) (hnc : ∃ x ∈ rs, ∃ y ∈ rs, x ≠ y) :
    ∃ d, UvNormal.fitMle xs = .ok d ∧ (UvNormal.mean d).Is (empMean rs) ∧ (UvNormal.variance d).Is (empVar rs) ∧
      ∀ m w : ℝ, 0 < w → logLik (gaussianPDFReal m w.toNNReal) rs ≤
        logLik (gaussianPDFReal (empMean rs) (empVar rs).toNNReal) rs := by
  have hne : rs ≠ [] := by obtain ⟨x, hx, _⟩ := hnc; exact List.ne_nil_of_mem hx
  have hn : 0 < (rs.length : ℝ) := by exact_mod_cast List.length_pos_iff.2 hne
  have hV := empVar_pos rs hnc
  have h1 := mle_mean_is hx hne
  have h2 := mle_var_is hx hne h1
  refine ⟨_, UvNormal.new_ok.2 ⟨lt_of_pos hV h2, rfl⟩, h1, h2, fun m w hw => ?_⟩
  rw [normal_logLik _ _ hw, normal_logLik _ _ hV, sum_sq_decomp rs hne m]
  have e : (rs.map fun x => (x - rs.sum / rs.length) ^ 2).sum = rs.length * empVar rs := by
    unfold empVar empMean; rw [mul_div_cancel₀ _ hn.ne']
  have e' : (rs.map fun x => (x - empMean rs) ^ 2).sum = rs.length * empVar rs := by
    unfold empVar; rw [mul_div_cancel₀ _ hn.ne']
  rw [e, e']
  generalize empVar rs = V at *
  generalize (rs.length : ℝ) = n at *
  have hlog := Real.log_le_sub_one_of_pos (div_pos hV hw)
  rw [Real.log_div hV.ne' hw.ne'] at hlog
  rw [Real.log_mul (by positivity) hw.ne', Real.log_mul (by positivity) hV.ne']
  have h3 : (n * V + n * (rs.sum / n - m) ^ 2) / (2 * w) = n / 2 * (V / w) + n * (rs.sum / n - m) ^ 2 / (2 * w) := by
    field_simp
  have h4 : n * V / (2 * V) = n / 2 := by field_simp
  have h5 : 0 ≤ n * (rs.sum / n - m) ^ 2 / (2 * w) := by positivity
  rw [h3, h4]
  nlinarith [mul_le_mul_of_nonneg_left hlog (by positivity : 0 ≤ n / 2)]

/-- C43: constant data (in particular a single point) are refused, in exact arithmetic -/
theorem C43_mle_refuses_constant (hx : List.Forall₂ Is xs rs) (c : ℝ) (hc : ∀ x ∈ rs, x = c) :
    ¬ ∃ d, UvNormal.fitMle xs = .ok d := by
  rintro ⟨d, hd⟩
  by_cases hne : rs = []
  · subst hne; cases hx
    have := (UvNormal.new_ok.1 hd).1
    have e : F64.ofNat ([] : List F64).length = 0 := by
      unfold F64.ofNat; simp only [List.length_nil, Nat.cast_zero]; exact round_exact 0
    rw [e] at this
    exact absurd this (by
      show ¬ (0 : F64) < F64.div 0 0
      have : F64.div (0 : F64) 0 = .nan := by
        show F64.div (fin 0) (fin 0) = _
        simp [F64.div]
      rw [this]; simp)
  · have hn : (rs.length : ℝ) ≠ 0 := by simpa using hne
    have h1 := mle_mean_is hx hne
    have h2 := mle_var_is hx hne h1
    have hp := pos_of_lt (UvNormal.new_ok.1 hd).1 h2
    have hrep : rs = List.replicate rs.length c := List.eq_replicate_of_mem hc
    have hm : empMean rs = c := by
      unfold empMean
      have : rs.sum = rs.length * c := by conv_lhs => rw [hrep]
                                          simp
      rw [this]; field_simp
    have : (rs.map fun x => (x - empMean rs) ^ 2).sum = 0 := by
      apply List.sum_eq_zero
      intro y hy; obtain ⟨x, hx', rfl⟩ := List.mem_map.1 hy
      rw [hm, hc x hx']; simp
    rw [this] at hp; simp at hp

end

/-- C43: empty data are refused in every lawful arithmetic (binary64 in particular) -/
theorem C43_mle_refuses_empty [FP] [FP.Lawful] : ¬ ∃ d, UvNormal.fitMle [] = .ok d := by
  rintro ⟨d, hd⟩
  have h := (UvNormal.new_ok.1 hd).1
  have e : (F64.ofNat ([] : List F64).length).Is 0 := by
    unfold F64.ofNat; simp only [List.length_nil, Nat.cast_zero]
    have := round_is_of_le (r := 0) 0 (by norm_num) (by simp)
    rwa [rnd_zero] at this
  have : (0 : F64) / F64.ofNat ([] : List F64).length = .nan := by
    show F64.div (fin 0) _ = _
    rcases e with h | ⟨h, -⟩ <;> rw [h] <;> simp [F64.div]
  have h2 : (0 : F64) < (0 : F64) / F64.ofNat ([] : List F64).length := h
  rw [this] at h2
  simp at h2

example : List.Forall₂ Is [fin 0, fin 1, fin 2] [0, 1, 2] ∧ ∃ x ∈ [(0:ℝ), 1, 2], ∃ y ∈ [(0:ℝ), 1, 2], x ≠ y :=
  ⟨.cons (.fin _) (.cons (.fin _) (.cons (.fin _) .nil)), 0, by simp, 1, by simp, by norm_num⟩

/-! ### C44 -/
section
variable [FP] [FP.Exact] {a b : F64} {μ v : ℝ} {d : UvNormal}

theorem deriv_log_mu (μ : ℝ) {v : ℝ} (hv : 0 < v) (x : ℝ) :
    deriv (fun t => Real.log (gaussianPDFReal t v.toNNReal x)) μ = (x - μ) / v := by
  have e : (fun t => Real.log (gaussianPDFReal t v.toNNReal x)) =
      fun t => -(1 / 2 * Real.log (2 * π * v)) - (x - t) ^ 2 / (2 * v) := by ext t; exact log_gaussianPDF t hv x
  rw [e]
  have h := ((((hasDerivAt_id μ).const_sub x).pow 2).div_const (2 * v)).const_sub (-(1 / 2 * Real.log (2 * π * v)))
  refine (HasDerivAt.congr_deriv h ?_).deriv
  simp only [id_eq]; push_cast; field_simp; try ring

theorem deriv_log_v (μ : ℝ) {v : ℝ} (hv : 0 < v) (x : ℝ) :
    deriv (fun t => Real.log (gaussianPDFReal μ t.toNNReal x)) v = -1 / (2 * v) + (x - μ) ^ 2 / (2 * v ^ 2) := by
  have e : (fun t : ℝ => Real.log (gaussianPDFReal μ t.toNNReal x)) =ᶠ[nhds v]
      fun t => -(1 / 2 * (Real.log (2 * π) + Real.log t)) - (x - μ) ^ 2 / 2 * t⁻¹ := by
    filter_upwards [Ioi_mem_nhds hv] with t ht
    have ht : 0 < t := ht
    rw [log_gaussianPDF μ ht x, Real.log_mul (by positivity) ht.ne']; field_simp
  rw [e.deriv_eq]
  have h := ((((Real.hasDerivAt_log hv.ne').const_add (Real.log (2 * π))).const_mul (1 / 2)).neg).sub
    ((hasDerivAt_inv hv.ne').const_mul ((x - μ) ^ 2 / 2))
  refine (HasDerivAt.congr_deriv h ?_).deriv
  field_simp; ring

/-- the Gaussian family in the parameters (mean, variance) -/
noncomputable def Spec.normalFamily (θ : Fin 2 → ℝ) (x : ℝ) : ℝ := gaussianPDFReal (θ 0) (θ 1).toNNReal x

theorem normal_fisher (μ : ℝ) {v : ℝ} (hv : 0 < v) :
    fisher normalFamily ![μ, v] 0 0 = 1 / v ∧ fisher normalFamily ![μ, v] 0 1 = 0 ∧
    fisher normalFamily ![μ, v] 1 0 = 0 ∧ fisher normalFamily ![μ, v] 1 1 = 1 / (2 * v ^ 2) := by
  have hs2 : √v ^ 2 = v := Real.sq_sqrt hv.le
  have hs : 0 < √v := sqrt_pos.2 hv
  have d0 : ∀ x, deriv (fun t => Real.log (normalFamily (Function.update ![μ, v] 0 t) x)) (![μ, v] 0) = (x - μ) / v :=
    fun x => deriv_log_mu μ hv x
  have d1 : ∀ x, deriv (fun t => Real.log (normalFamily (Function.update ![μ, v] 1 t) x)) (![μ, v] 1) =
      -1 / (2 * v) + (x - μ) ^ 2 / (2 * v ^ 2) := fun x => deriv_log_v μ hv x
  have fam : ∀ x, normalFamily ![μ, v] x = gaussianPDFReal μ v.toNNReal x := fun x => rfl
  unfold fisher
  simp only [d0, d1, fam]
  refine ⟨?_, ?_, ?_, ?_⟩
  · rw [(integral_gauss_std μ hv (fun x => (x - μ) / v * ((x - μ) / v)) (by fun_prop)).2]
    have := (std_poly 0 0 (1 / v) 0 0).2
    rw [show (1:ℝ) / v = 0 + 1 / v + 3 * 0 by ring, ← this]
    congr 1; ext z
    rw [add_sub_cancel_right]
    generalize √v = s at *; subst hs2; field_simp; ring
  · rw [(integral_gauss_std μ hv (fun x => (x - μ) / v * (-1 / (2 * v) + (x - μ) ^ 2 / (2 * v ^ 2))) (by fun_prop)).2]
    have := (std_poly 0 (-√v / (2 * v ^ 2)) 0 (√v / (2 * v ^ 2)) 0).2
    refine Eq.trans (Eq.trans ?_ this) (by ring)
    congr 1; ext z
    rw [add_sub_cancel_right]
    generalize √v = s at *; subst hs2; field_simp; ring
  · rw [(integral_gauss_std μ hv (fun x => (-1 / (2 * v) + (x - μ) ^ 2 / (2 * v ^ 2)) * ((x - μ) / v)) (by fun_prop)).2]
    have := (std_poly 0 (-√v / (2 * v ^ 2)) 0 (√v / (2 * v ^ 2)) 0).2
    refine Eq.trans (Eq.trans ?_ this) (by ring)
    congr 1; ext z
    rw [add_sub_cancel_right]
    generalize √v = s at *; subst hs2; field_simp; ring
  · rw [(integral_gauss_std μ hv (fun x => (-1 / (2 * v) + (x - μ) ^ 2 / (2 * v ^ 2)) *
      (-1 / (2 * v) + (x - μ) ^ 2 / (2 * v ^ 2))) (by fun_prop)).2]
    have := (std_poly (1 / (4 * v ^ 2)) 0 (-1 / (2 * v ^ 2)) 0 (1 / (4 * v ^ 2))).2
    rw [show (1:ℝ) / (2 * v ^ 2) = 1 / (4 * v ^ 2) + -1 / (2 * v ^ 2) + 3 * (1 / (4 * v ^ 2)) by field_simp; ring, ← this]
    congr 1; ext z
    rw [add_sub_cancel_right]
    generalize √v = s at *; subst hs2; field_simp; ring

/-- C44: Shannon entropy is the differential entropy of the Gaussian density, the Fisher information matrix is that of
the family in (mean, variance), the reported mode maximises the density, and cdf(median) = 1/2. -/
theorem C44_entropy_fisher_mode_median (h : UvNormal.new a b = .ok d) (ha : a.Is μ) (hb : b.Is v) :
    (∃ e, d.shannonEntropy.Is e ∧ HasEntropy (gaussianPDFReal μ v.toNNReal) e) ∧
    (∀ i j, (d.fisherInformation i j).Is (fisher normalFamily ![μ, v] i j)) ∧
    (∃ m, UvNormal.modes d = [m] ∧ m.Is μ ∧ IsMode (gaussianPDFReal μ v.toNNReal) μ) ∧
    (d.cdf (UvNormal.median d)).val.Is (1 / 2) := by
  obtain ⟨h0, rfl⟩ := UvNormal.new_ok.1 h
  have hv := pos_of_lt h0 hb
  refine ⟨⟨_, ?_, normal_entropy μ hv⟩, ?_, ⟨a, rfl, ha, fun x => ?_⟩, ?_⟩
  · unfold UvNormal.shannonEntropy
    refine Is.congr (r := Real.log (π * Real.exp 1 * 2 * v) / 2) (by fev) ?_
    rw [show π * Real.exp 1 * 2 * v = 2 * π * Real.exp 1 * v by ring]; ring
  · obtain ⟨f1, f2, f3, f4⟩ := normal_fisher μ hv
    have hp : (UvNormal.precision ⟨a, b⟩).Is (1 / v) := Is.one.div hb hv.ne'
    intro i j
    fin_cases i <;> fin_cases j
    · exact hp.congr f1.symm
    · exact Is.zero.congr f2.symm
    · exact Is.zero.congr f3.symm
    · refine Is.congr ((hp.mul hp).div (Is.num 2) two_ne_zero) ?_
      refine Eq.trans ?_ f4.symm; field_simp
  · simp only [gaussianPDFReal, sub_self]
    have : Real.exp (-(x - μ) ^ 2 / (2 * v.toNNReal)) ≤ Real.exp (-0 ^ 2 / (2 * v.toNNReal)) := by
      apply Real.exp_le_exp.2
      rw [Real.coe_toNNReal _ hv.le]
      have : -(x - μ) ^ 2 / (2 * v) ≤ 0 := div_nonpos_of_nonpos_of_nonneg (by nlinarith [sq_nonneg (x - μ)]) (by positivity)
      simpa using this
    exact mul_le_mul_of_nonneg_left this (by positivity)
  · refine (normal_cdf_is (d := ⟨a, b⟩) ha hb hv ha).congr ?_
    rw [sub_self, zero_div, Phi_zero]

end

end Rstat
