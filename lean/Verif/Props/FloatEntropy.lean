import Verif.Lemmas.FloatRel7
import Verif.Props.FloatMedian
import Verif.Props.FloatStats2
import Verif.Props.Dist.Levy
import Verif.Props.Normal

/-! C256: the entropies computed in rounded arithmetic are within `2^-40` of the differential entropy of the law. -/
set_option linter.unusedSectionVars false
namespace Rstat
open F64 Spec Consts Real

section exactReals
attribute [local instance] exactFP exactFP_exact

/-! differential entropies in closed form -/
variable {m s z : ℝ}

theorem exp_entropy (hs : 0 < s) : HasEntropy (expPDF s) (1 - Real.log s) := by
  have hd : Exponential.new (fin s) = .ok ⟨fin s⟩ := Exponential.new_ok.2 ⟨lt_of_pos hs (Is.fin _), rfl⟩
  obtain ⟨-, -, -, -, -, -, -, -, -, ⟨e, hx, h⟩, -⟩ := C61_exponential hd (Is.fin s)
  have i : (Exponential.shannonEntropy ⟨fin s⟩).Is (1 - Real.log s) := by unfold Exponential.shannonEntropy; fev
  rw [is_uniq hx i] at h; exact h

theorem logistic_entropy (hs : 0 < s) : HasEntropy (logisticPDF m s) (Real.log s + 2) := by
  have hd : Logistic.new (fin m) (fin s) = .ok ⟨fin m, fin s⟩ := Logistic.new_ok.2 ⟨lt_of_pos hs (Is.fin _), rfl⟩
  obtain ⟨-, -, -, -, -, -, -, -, -, -, -, e, hx, h⟩ := C66_logistic hd (Is.fin m) (Is.fin s)
  have i : (Logistic.shannonEntropy ⟨fin m, fin s⟩).Is (Real.log s + 2) := by unfold Logistic.shannonEntropy; fev
  rw [is_uniq hx i] at h; exact h

theorem laplace_entropy (hs : 0 < s) : HasEntropy (laplacePDF m s) (Real.log (2 * s * Real.exp 1)) := by
  have hd : Laplace.new (fin m) (fin s) = .ok ⟨fin m, fin s⟩ := Laplace.new_ok.2 ⟨lt_of_pos hs (Is.fin _), rfl⟩
  obtain ⟨-, -, -, -, -, -, ⟨e, hx, h⟩, -⟩ := C65_laplace_rest_partial hd (Is.fin m) (Is.fin s)
  have i : (Laplace.shannonEntropy ⟨fin m, fin s⟩).Is (Real.log (2 * s * Real.exp 1)) := by
    have : 0 < 2 * s * Real.exp 1 := by positivity
    unfold Laplace.shannonEntropy; fev
  rw [is_uniq hx i] at h; exact h

theorem cauchy_entropy (hs : 0 < s) : HasEntropy (cauchyDensity m s) (Real.log (4 * π * s)) := by
  have hd : Cauchy.new (fin m) (fin s) = .ok ⟨fin m, fin s⟩ := Cauchy.new_ok.2 ⟨lt_of_pos hs (Is.fin _), rfl⟩
  obtain ⟨-, -, -, -, -, -, -, -, -, ⟨e, hx, h⟩, -⟩ := C59_cauchy hd (Is.fin m) (Is.fin s)
  have i : (Cauchy.shannonEntropy ⟨fin m, fin s⟩).Is (Real.log (4 * π * s)) := by
    have : 0 < 4 * π * s := by positivity
    unfold Cauchy.shannonEntropy; fev
  rw [is_uniq hx i] at h; exact h

theorem uniform_entropy (hs : 0 < s) : HasEntropy (uniformPDF m (m + s)) (Real.log s) := by
  have hd : UniformF.new (fin m) (fin s) = .ok ⟨fin m, fin s, 1 / fin s⟩ := UniformF.new_ok.2 ⟨lt_of_pos hs (Is.fin _), rfl⟩
  obtain ⟨-, -, -, -, -, -, -, -, -, -, -, -, ⟨e, hx, h⟩, -⟩ := C53_uniform hd (Is.fin m) (Is.fin s)
  have i : (UniformF.shannonEntropy ⟨fin m, fin s, 1 / fin s⟩).Is (Real.log s) := by unfold UniformF.shannonEntropy; fev
  rw [is_uniq hx i] at h; exact h

theorem gpd_entropy (hs : 0 < s) (hz : 0 < z) : HasEntropy (gpdPDF m s z) (Real.log s + z + 1) := by
  have hd : GeneralisedPareto.new (fin m) (fin s) (fin z) = .ok ⟨fin m, fin s, fin z⟩ :=
    GeneralisedPareto.new_ok.2 ⟨lt_of_pos hs (Is.fin _), lt_of_pos hz (Is.fin _), rfl⟩
  obtain ⟨-, -, -, -, -, -, -, e, hx, h⟩ := C79_gpd hd (Is.fin m) (Is.fin s) (Is.fin z)
  have i : (GeneralisedPareto.shannonEntropy ⟨fin m, fin s, fin z⟩).Is (Real.log s + z + 1) := by unfold GeneralisedPareto.shannonEntropy; fev
  rw [is_uniq hx i] at h; exact h

theorem pareto_entropy (hs : 0 < s) (hz : 0 < z) : HasEntropy (Spec.paretoPDF s z) (Real.log (s / z * Real.exp (1 + 1 / z))) := by
  have hd : Pareto.new (fin s) (fin z) = .ok ⟨fin s, fin z⟩ := Pareto.new_ok.2 ⟨lt_of_pos hz (Is.fin _), rfl⟩
  obtain ⟨-, -, -, -, -, -, -, -, -, -, -, -, -, -, -, e, hx, h⟩ := C73_pareto hd (Is.fin s) (Is.fin z) hs
  have i : (Pareto.shannonEntropy ⟨fin s, fin z⟩).Is (Real.log (s / z * Real.exp (1 + 1 / z))) := by
    have : 0 < s / z * Real.exp (1 + 1 / z) := by positivity
    unfold Pareto.shannonEntropy; fev
  rw [is_uniq hx i] at h; exact h

theorem gumbel_entropy (hs : 0 < s) : HasEntropy (gumbelPDF m s) (Real.log s + Real.eulerMascheroniConstant + 1) := by
  have hd : Gumbel.new (fin m) (fin s) = .ok ⟨fin m, fin s⟩ := Gumbel.new_ok.2 ⟨lt_of_pos hs (Is.fin _), rfl⟩
  obtain ⟨-, -, -, -, -, -, -, -, -, -, e, hx, h⟩ := C67_gumbel hd (Is.fin m) (Is.fin s)
  have i : (Gumbel.shannonEntropy ⟨fin m, fin s⟩).Is (Real.log s + -(Spec.digamma 1) + 1) := by unfold Gumbel.shannonEntropy; fev
  rw [digamma_one, neg_neg] at i
  rw [is_uniq hx i] at h; exact h

theorem frechet_entropy (hz : 0 < z) :
    HasEntropy (frechetPDF z) (1 + Real.eulerMascheroniConstant / z + Real.eulerMascheroniConstant + Real.log (1 / z)) := by
  have hd : Frechet.new (fin z) = .ok ⟨fin z⟩ := Frechet.new_ok.2 ⟨lt_of_pos hz (Is.fin _), rfl⟩
  obtain ⟨-, -, -, -, -, -, -, -, -, -, -, -, -, -, -, e, hx, h⟩ := C68_frechet hd (Is.fin z)
  have i : (Frechet.shannonEntropy ⟨fin z⟩).Is (1 + -(Spec.digamma 1) / z + -(Spec.digamma 1) + Real.log (1 / z)) := by
    unfold Frechet.shannonEntropy; dsimp only; fev
  rw [digamma_one, neg_neg] at i
  rw [is_uniq hx i] at h; exact h

theorem gev_entropy (hs : 0 < s) (hz0 : 0 < z) : HasEntropy (gevPDF m s z)
    (Real.log s + Real.eulerMascheroniConstant * z + Real.eulerMascheroniConstant + 1) := by
  have hd : GeneralisedExtremeValue.new (fin m) (fin s) (fin z) = .ok ⟨fin m, fin s, fin z⟩ :=
    GeneralisedExtremeValue.new_ok.2 ⟨lt_of_pos hs (Is.fin _), lt_of_pos hz0 (Is.fin _), rfl⟩
  have i : (GeneralisedExtremeValue.shannonEntropy ⟨fin m, fin s, fin z⟩).Is (Real.log s + -(Spec.digamma 1) * z + -(Spec.digamma 1) + 1) := by
    unfold GeneralisedExtremeValue.shannonEntropy; dsimp only; fev
  rw [digamma_one, neg_neg] at i
  have : ∃ e, (GeneralisedExtremeValue.shannonEntropy ⟨fin m, fin s, fin z⟩).Is e ∧ HasEntropy (gevPDF m s z) e := by
    rcases lt_or_ge z (1 / 10 ^ 7) with h | h
    · obtain ⟨-, -, -, -, -, -, -, r⟩ := C112_gev_small_shape_partial hd (Is.fin m) (Is.fin s) (Is.fin z) h
      exact r
    · obtain ⟨-, -, -, -, -, -, -, -, -, -, -, -, -, -, -, r⟩ := C81_gev hd (Is.fin m) (Is.fin s) (Is.fin z) h
      exact r
  obtain ⟨e, hx, h⟩ := this
  rw [is_uniq hx i] at h; exact h

theorem levy_entropy (hs : 0 < s) : HasEntropy (levyPDF m s) ((1 + 3 * Real.eulerMascheroniConstant + Real.log (π * 16 * s * s)) / 2) := by
  have hd : Levy.new (fin m) (fin s) = .ok ⟨fin m, fin s⟩ := Levy.new_ok.2 ⟨lt_of_pos hs (Is.fin _), rfl⟩
  obtain ⟨-, -, -, -, -, -, -, -, e, hx, h⟩ := C163_levy hd (Is.fin m) (Is.fin s)
  have i : (Levy.shannonEntropy ⟨fin m, fin s⟩).Is ((1 + 3 * -(Spec.digamma 1) + Real.log (π * 16 * s * s)) / 2) := by
    have : 0 < π * 16 * s * s := by positivity
    unfold Levy.shannonEntropy; dsimp only; fev
  rw [digamma_one, neg_neg] at i
  rw [is_uniq hx i] at h; exact h

theorem weibull_entropy (hs : 0 < s) (hz : 0 < z) : HasEntropy (weibullPDF s z)
    (Real.eulerMascheroniConstant * (1 - 1 / z) + Real.log (s / z) + 1) := by
  have hd : Weibull.new (fin s) (fin z) = .ok ⟨fin s, fin z⟩ := Weibull.new_ok.2 ⟨lt_of_pos hs (Is.fin _), lt_of_pos hz (Is.fin _), rfl⟩
  obtain ⟨-, -, -, -, -, -, -, -, -, -, e, hx, h⟩ := C70_weibull hd (Is.fin s) (Is.fin z)
  have i : (Weibull.shannonEntropy ⟨fin s, fin z⟩).Is (-(Spec.digamma 1) * (1 - 1 / z) + Real.log (s / z) + 1) := by
    have : 0 < s / z := by positivity
    unfold Weibull.shannonEntropy; dsimp only; fev
  rw [digamma_one, neg_neg] at i
  rw [is_uniq hx i] at h; exact h

theorem rayleigh_entropy (hs : 0 < s) : HasEntropy (rayleighPDF s) (1 + Real.log (s / √2) + Real.eulerMascheroniConstant / 2) := by
  have hd : Rayleigh.new (fin s) = .ok ⟨fin s⟩ := Rayleigh.new_ok.2 ⟨lt_of_pos hs (Is.fin _), rfl⟩
  obtain ⟨-, -, -, -, -, -, -, -, e, hx, h⟩ := C75_rayleigh_partial hd (Is.fin s)
  have i : (Rayleigh.shannonEntropy ⟨fin s⟩).Is (1 + Real.log (s / √2) + -(Spec.digamma 1) / 2) := by
    have : 0 < s / √2 := by positivity
    unfold Rayleigh.shannonEntropy; dsimp only; fev
  rw [digamma_one, neg_neg] at i
  rw [is_uniq hx i] at h; exact h

end exactReals

section
variable [FP] [FP.Lawful] [FP.Libm] [FP.Accurate] {a b c : F64} {μ s z α : ℝ}

theorem ord_log (hs : Ordinary s) : |Real.log s| ≤ 60 := by
  have := log_size (k := 60) hs.1 hs.2
  exact_mod_cast this

theorem Rel.e : Rel E (Real.exp 1) 2 1 := by
  have h1 := Real.exp_one_gt_d9
  have h2 := Real.exp_one_lt_d9
  exact Rel.lit (by rw [abs_of_pos (Real.exp_pos _)]; norm_num; linarith) (by rw [abs_of_pos (Real.exp_pos _)]; norm_num; linarith) (by norm_num)

/-- C256 (exponential law): the entropy. -/
theorem C256_exponential {d : Exponential} (h : Exponential.new a = .ok d) (ha : a.Is s) (hs : Ordinary s) :
    ∃ e, HasEntropy (expPDF s) e ∧ AbsClose d.shannonEntropy e (1 / 2 ^ 40) := by
  obtain ⟨_, rfl⟩ := Exponential.new_ok.1 h
  refine ⟨_, exp_entropy hs.pos, ?_⟩
  obtain ⟨l, w⟩ := (Rel.ord ha hs).ln_abs hs.pos (by norm_num) (by norm_num)
  have l := abs_le.1 (ord_log hs)
  exact Within.sub 100 (Within.exact Is.one) w (abs_le.2 ⟨by linarith, by linarith⟩) (by norm_num) (by norm_num)

/-- C256 (logistic law): the entropy. -/
theorem C256_logistic {d : Logistic} (h : Logistic.new a b = .ok d) (hb : b.Is s) (hs : Ordinary s) :
    ∃ e, HasEntropy (logisticPDF μ s) e ∧ AbsClose d.shannonEntropy e (1 / 2 ^ 40) := by
  obtain ⟨_, rfl⟩ := Logistic.new_ok.1 h
  refine ⟨_, logistic_entropy hs.pos, ?_⟩
  obtain ⟨_, w⟩ := (Rel.ord hb hs).ln_abs hs.pos (by norm_num) (by norm_num)
  have l := abs_le.1 (ord_log hs)
  exact Within.add 100 w (Within.exact (Is.num 2)) (abs_le.2 ⟨by norm_num; linarith, by norm_num; linarith⟩) (by norm_num) (by norm_num)

/-- C256 (Laplace law): the entropy. -/
theorem C256_laplace {d : Laplace} (h : Laplace.new a b = .ok d) (hb : b.Is s) (hs : Ordinary s) :
    ∃ e, HasEntropy (laplacePDF μ s) e ∧ AbsClose d.shannonEntropy e (1 / 2 ^ 40) := by
  obtain ⟨_, rfl⟩ := Laplace.new_ok.1 h
  have s0 := hs.pos
  refine ⟨_, laplace_entropy s0, ?_⟩
  obtain ⟨_, w⟩ := (((Rel.num 2 (by norm_num)).mul (Rel.ord hb hs) (by norm_num) (by norm_num)).mul Rel.e (by norm_num) (by norm_num)).ln_abs
    (by positivity) (by norm_num) (by norm_num)
  exact w.mono (by norm_num)

/-- C256 (Cauchy law): the entropy. -/
theorem C256_cauchy {d : Cauchy} (h : Cauchy.new a b = .ok d) (hb : b.Is s) (hs : Ordinary s) :
    ∃ e, HasEntropy (cauchyDensity μ s) e ∧ AbsClose d.shannonEntropy e (1 / 2 ^ 40) := by
  obtain ⟨_, rfl⟩ := Cauchy.new_ok.1 h
  have s0 := hs.pos
  refine ⟨_, cauchy_entropy s0, ?_⟩
  obtain ⟨_, w⟩ := (((Rel.num 4 (by norm_num)).mul Rel.pi (by norm_num) (by norm_num)).mul (Rel.ord hb hs) (by norm_num) (by norm_num)).ln_abs
    (by positivity) (by norm_num) (by norm_num)
  exact w.mono (by norm_num)

/-- C256 (continuous uniform law): the entropy. -/
theorem C256_uniform {d : UniformF} (h : UniformF.new a b = .ok d) (hb : b.Is s) (hs : Ordinary s) :
    ∃ e, HasEntropy (uniformPDF μ (μ + s)) e ∧ AbsClose d.shannonEntropy e (1 / 2 ^ 40) := by
  obtain ⟨_, rfl⟩ := UniformF.new_ok.1 h
  refine ⟨_, uniform_entropy hs.pos, ?_⟩
  obtain ⟨_, w⟩ := (Rel.ord hb hs).ln_abs hs.pos (by norm_num) (by norm_num)
  exact w.mono (by norm_num)

/-- C256 (generalised Pareto law, shape at most `2^10`): the entropy. -/
theorem C256_gpd {d : GeneralisedPareto} (h : GeneralisedPareto.new a b c = .ok d) (hb : b.Is s) (hc : c.Is z) (hs : Ordinary s) (hz : z ≤ 2 ^ 10) :
    ∃ e, HasEntropy (gpdPDF μ s z) e ∧ AbsClose d.shannonEntropy e (1 / 2 ^ 40) := by
  obtain ⟨_, h0, rfl⟩ := GeneralisedPareto.new_ok.1 h
  have z0 : 0 < z := pos_of_lt h0 hc
  refine ⟨_, gpd_entropy hs.pos z0, ?_⟩
  obtain ⟨_, w⟩ := (Rel.ord hb hs).ln_abs hs.pos (by norm_num) (by norm_num)
  have l := abs_le.1 (ord_log hs)
  have w2 := Within.add (ρ := 1 / 2 ^ 41) 1100 w (Within.exact hc) (abs_le.2 ⟨by linarith, by norm_num at hz; linarith⟩) (by norm_num) (by norm_num)
  exact Within.add 1100 w2 (Within.exact Is.one) (abs_le.2 ⟨by linarith, by norm_num at hz; linarith⟩) (by norm_num) (by norm_num)

/-- C256 (Pareto law, shape at least 1/256): the entropy. -/
theorem C256_pareto_partial {d : Pareto} (h : Pareto.new a b = .ok d) (ha : a.Is s) (hb : b.Is α) (hs : Ordinary s) (hα : Ordinary α) (h1 : 1 / 256 ≤ α) :
    ∃ e, HasEntropy (Spec.paretoPDF s α) e ∧ AbsClose d.shannonEntropy e (1 / 2 ^ 40) := by
  obtain ⟨_, rfl⟩ := Pareto.new_ok.1 h
  have s0 := hs.pos
  have α0 := hα.pos
  refine ⟨_, pareto_entropy s0 α0, ?_⟩
  have q := Rel.ord hb hα
  have i0 : 0 < 1 / α := by positivity
  have i1 : 1 / α ≤ 256 := by rw [div_le_iff₀ α0]; linarith
  have y : Rel (1 + 1 / b) (1 + 1 / α) 68 2 := ((Rel.one.mono (k' := 67) (n' := 1) (by norm_num) (by norm_num)).add
    ((Rel.one.div q (by norm_num) (by norm_num)).mono (k' := 67) (n' := 1) (by norm_num) (by norm_num)) one_pos i0 (by norm_num) (by norm_num)).mono (by norm_num) (by norm_num)
  have x : Rel (1 + 1 / b).exp (Real.exp (1 + 1 / α)) 514 1031 := (y.exp 257
    (by rw [abs_of_pos (by positivity)]; push_cast; linarith) (by norm_num) (by norm_num)).mono (by norm_num) (by norm_num)
  have u : Rel (a / b) (s / α) 120 1 := ((Rel.ord ha hs).div q (by norm_num) (by norm_num)).mono (by norm_num) (by norm_num)
  have t : Rel (a / b * (1 + 1 / b).exp) (s / α * Real.exp (1 + 1 / α)) 634 1034 := (u.mul x (by norm_num) (by norm_num)).mono (by norm_num) (by norm_num)
  obtain ⟨_, w⟩ := t.ln_abs (by positivity) (by norm_num) (by norm_num)
  exact w.mono (by norm_num)

/-- C256 (normal law): the entropy. -/
theorem C256_normal {d : UvNormal} (h : UvNormal.new a b = .ok d) (hb : b.Is s) (hs : Ordinary s) :
    ∃ e, HasEntropy (ProbabilityTheory.gaussianPDFReal μ s.toNNReal) e ∧ AbsClose d.shannonEntropy e (1 / 2 ^ 40) := by
  obtain ⟨_, rfl⟩ := UvNormal.new_ok.1 h
  have s0 := hs.pos
  refine ⟨_, Spec.normal_entropy μ s0, ?_⟩
  have r := ((Rel.pi.mul Rel.e (by norm_num) (by norm_num)).mul (Rel.num 2 (by norm_num)) (by norm_num) (by norm_num)).mul (Rel.ord hb hs) (by norm_num) (by norm_num)
  obtain ⟨l, w⟩ := r.ln_abs (by positivity) (by norm_num) (by norm_num)
  rw [show 1 / 2 * Real.log (2 * π * Real.exp 1 * s) = Real.log (π * Real.exp 1 * 2 * s) / 2 by rw [one_div_mul_eq_div]; congr 2; ring]
  norm_num at l
  exact Within.div_const 100 w (Is.num 2) (by norm_num) (l.trans (by norm_num)) (by norm_num) (by norm_num)

/-! the laws whose entropy involves the Euler-Mascheroni constant, taken from the digamma function -/
variable [FP.AccurateEuler]

theorem euler_abs : |Real.eulerMascheroniConstant| ≤ 1 := by
  obtain ⟨h1, h2⟩ := euler_bounds
  rw [abs_of_pos (by linarith)]; linarith

/-- C256 (Gumbel law): the entropy. -/
theorem C256_gumbel {d : Gumbel} (h : Gumbel.new a b = .ok d) (hb : b.Is s) (hs : Ordinary s) :
    ∃ e, HasEntropy (gumbelPDF μ s) e ∧ AbsClose d.shannonEntropy e (1 / 2 ^ 40) := by
  obtain ⟨_, rfl⟩ := Gumbel.new_ok.1 h
  refine ⟨_, gumbel_entropy hs.pos, ?_⟩
  obtain ⟨_, w⟩ := (Rel.ord hb hs).ln_abs hs.pos (by norm_num) (by norm_num)
  have l := abs_le.1 (ord_log hs)
  have g := abs_le.1 euler_abs
  have w2 := Within.add (ρ := 1 / 2 ^ 41) 100 w euler_within (abs_le.2 ⟨by linarith, by linarith⟩) (by norm_num) (by norm_num)
  exact Within.add 100 w2 (Within.exact Is.one) (abs_le.2 ⟨by linarith, by linarith⟩) (by norm_num) (by norm_num)

/-- C256 (Rayleigh law): the entropy. -/
theorem C256_rayleigh {d : Rayleigh} (h : Rayleigh.new a = .ok d) (ha : a.Is s) (hs : Ordinary s) :
    ∃ e, HasEntropy (rayleighPDF s) e ∧ AbsClose d.shannonEntropy e (1 / 2 ^ 40) := by
  obtain ⟨_, rfl⟩ := Rayleigh.new_ok.1 h
  have s0 := hs.pos
  refine ⟨_, rayleigh_entropy s0, ?_⟩
  have r := (Rel.ord ha hs).div ((Rel.num 2 (by norm_num)).sqrt (by norm_num) (by norm_num) (by norm_num)) (by norm_num) (by norm_num)
  obtain ⟨l, w⟩ := r.ln_abs (by positivity) (by norm_num) (by norm_num)
  norm_num at l
  have l := abs_le.1 l
  have g := abs_le.1 euler_abs
  have w2 := Within.add (ρ := 1 / 2 ^ 42) 200 (Within.exact Is.one) w (abs_le.2 ⟨by linarith, by linarith⟩) (by norm_num) (by norm_num)
  have w3 := Within.div_const (ρ := 1 / 2 ^ 42) 1 euler_within (Is.num 2) (by norm_num) euler_abs (by norm_num) (by norm_num)
  exact Within.add 200 w2 w3 (abs_le.2 ⟨by norm_num; linarith, by norm_num; linarith⟩) (by norm_num) (by norm_num)

/-- C256 (Lévy law): the entropy. -/
theorem C256_levy {d : Levy} (h : Levy.new a b = .ok d) (hb : b.Is s) (hs : Ordinary s) :
    ∃ e, HasEntropy (levyPDF μ s) e ∧ AbsClose d.shannonEntropy e (1 / 2 ^ 40) := by
  obtain ⟨_, rfl⟩ := Levy.new_ok.1 h
  have s0 := hs.pos
  refine ⟨_, levy_entropy s0, ?_⟩
  have q := Rel.ord hb hs
  have r := ((Rel.pi.mul (Rel.num 16 (by norm_num)) (by norm_num) (by norm_num)).mul q (by norm_num) (by norm_num)).mul q (by norm_num) (by norm_num)
  obtain ⟨l, w⟩ := r.ln_abs (by positivity) (by norm_num) (by norm_num)
  norm_num at l
  have l := abs_le.1 l
  have g := abs_le.1 euler_abs
  have w1 := Within.mul (ρ := 1 / 2 ^ 45) 3 1 (Within.exact (Is.num 3)) euler_within (by norm_num) euler_abs (by norm_num) (by norm_num)
  have w2 := Within.add (ρ := 1 / 2 ^ 44) 4 (Within.exact Is.one) w1 (abs_le.2 ⟨by norm_num; linarith, by norm_num; linarith⟩) (by norm_num) (by norm_num)
  have w3 := Within.add (ρ := 1 / 2 ^ 41) 300 w2 w (abs_le.2 ⟨by norm_num; linarith, by norm_num; linarith⟩) (by norm_num) (by norm_num)
  exact Within.div_const 300 w3 (Is.num 2) (by norm_num) (abs_le.2 ⟨by norm_num; linarith, by norm_num; linarith⟩) (by norm_num) (by norm_num)

/-- C256 (generalised extreme value law, shape at most `2^10`): the entropy. -/
theorem C256_gev {d : GeneralisedExtremeValue} (h : GeneralisedExtremeValue.new a b c = .ok d) (hb : b.Is s) (hc : c.Is z) (hs : Ordinary s) (hz : z ≤ 2 ^ 10) :
    ∃ e, HasEntropy (gevPDF μ s z) e ∧ AbsClose d.shannonEntropy e (1 / 2 ^ 38) := by
  obtain ⟨_, h0, rfl⟩ := GeneralisedExtremeValue.new_ok.1 h
  have z0 : 0 < z := pos_of_lt h0 hc
  norm_num at hz
  refine ⟨_, gev_entropy hs.pos z0, ?_⟩
  obtain ⟨_, w⟩ := (Rel.ord hb hs).ln_abs hs.pos (by norm_num) (by norm_num)
  have l := abs_le.1 (ord_log hs)
  obtain ⟨g1, g2⟩ := euler_bounds
  have w1 := Within.mul (ρ := 1 / 2 ^ 39 - 1 / 2 ^ 41) 1 1024 euler_within (Within.exact hc) euler_abs (by rw [abs_of_pos z0]; exact hz) (by norm_num) (by norm_num)
  have p1 : 0 < Real.eulerMascheroniConstant * z := mul_pos (by linarith) z0
  have p2 : Real.eulerMascheroniConstant * z ≤ 1024 := by nlinarith
  have w2 := Within.add (ρ := 1 / 2 ^ 39 - 1 / 2 ^ 42) 1100 w w1 (abs_le.2 ⟨by linarith, by linarith⟩) (by norm_num) (by norm_num)
  have w3 := Within.add (ρ := 1 / 2 ^ 39) 1100 w2 euler_within (abs_le.2 ⟨by linarith, by linarith⟩) (by norm_num) (by norm_num)
  exact Within.add 1100 w3 (Within.exact Is.one) (abs_le.2 ⟨by linarith, by linarith⟩) (by norm_num) (by norm_num)

/-- C256 (Weibull law, shape at least 1/16): the entropy. -/
theorem C256_weibull {d : Weibull} (h : Weibull.new a b = .ok d) (ha : a.Is s) (hb : b.Is α) (hs : Ordinary s) (hα : Ordinary α) (h1 : 1 / 16 ≤ α) :
    ∃ e, HasEntropy (weibullPDF s α) e ∧ AbsClose d.shannonEntropy e (1 / 2 ^ 40) := by
  obtain ⟨_, _, rfl⟩ := Weibull.new_ok.1 h
  have s0 := hs.pos
  have α0 := hα.pos
  refine ⟨_, weibull_entropy s0 α0, ?_⟩
  have q := Rel.ord hb hα
  obtain ⟨l, w⟩ := ((Rel.ord ha hs).div q (by norm_num) (by norm_num)).ln_abs (by positivity) (by norm_num) (by norm_num)
  norm_num at l
  have l := abs_le.1 l
  obtain ⟨g1, g2⟩ := euler_bounds
  have i0 : 0 < 1 / α := by positivity
  have i1 : 1 / α ≤ 16 := by rw [div_le_iff₀ α0]; linarith
  have v := (Rel.one.div q (by norm_num) (by norm_num)).within 16 (by rw [abs_of_pos i0]; exact i1)
  have w1 := Within.sub (ρ := 1 / 2 ^ 45) 17 (Within.exact Is.one) v (abs_le.2 ⟨by linarith, by linarith⟩) (by norm_num) (by norm_num)
  have w2 := Within.mul (ρ := 1 / 2 ^ 43) 1 17 euler_within w1 euler_abs (abs_le.2 ⟨by linarith, by linarith⟩) (by norm_num) (by norm_num)
  have p1 : |Real.eulerMascheroniConstant * (1 - 1 / α)| ≤ 17 := by
    rw [abs_mul]
    calc _ ≤ 1 * (17:ℝ) := mul_le_mul euler_abs (abs_le.2 ⟨by linarith, by linarith⟩) (abs_nonneg _) (by norm_num)
      _ = 17 := by norm_num
  obtain ⟨p2, p3⟩ := abs_le.1 p1
  have w3 := Within.add (ρ := 1 / 2 ^ 41) 300 w2 w (abs_le.2 ⟨by linarith, by linarith⟩) (by norm_num) (by norm_num)
  exact Within.add 300 w3 (Within.exact Is.one) (abs_le.2 ⟨by linarith, by linarith⟩) (by norm_num) (by norm_num)

/-- C256 (Fréchet law, shape at least 1/16): the entropy. -/
theorem C256_frechet {d : Frechet} (h : Frechet.new a = .ok d) (ha : a.Is α) (hα : Ordinary α) (h1 : 1 / 16 ≤ α) :
    ∃ e, HasEntropy (frechetPDF α) e ∧ AbsClose d.shannonEntropy e (1 / 2 ^ 40) := by
  obtain ⟨_, rfl⟩ := Frechet.new_ok.1 h
  have α0 := hα.pos
  refine ⟨_, frechet_entropy α0, ?_⟩
  have q := Rel.ord ha hα
  obtain ⟨l, w⟩ := (Rel.one.div q (by norm_num) (by norm_num)).ln_abs (by positivity) (by norm_num) (by norm_num)
  norm_num at l
  have l := abs_le.1 l
  obtain ⟨g1, g2⟩ := euler_bounds
  have i0 : 0 < 1 / α := by positivity
  have i1 : 1 / α ≤ 16 := by rw [div_le_iff₀ α0]; linarith
  have e : Real.eulerMascheroniConstant / α = Real.eulerMascheroniConstant * (1 / α) := by ring
  have p0 : 0 < Real.eulerMascheroniConstant / α := div_pos (by linarith) α0
  have p1 : Real.eulerMascheroniConstant / α ≤ 16 := by rw [e]; nlinarith
  have w1 : Within (-(F64.digamma 1) / a) (Real.eulerMascheroniConstant / α) (1 / 2 ^ 44) := by
    obtain ⟨y, y1, y2⟩ := euler_within
    have hd : |y / α - Real.eulerMascheroniConstant / α| ≤ 16 / 2 ^ 50 := by
      rw [← sub_div, abs_div, abs_of_pos α0, div_eq_mul_one_div]
      calc _ ≤ 1 / 2 ^ 50 * (16:ℝ) := mul_le_mul y2 i1 i0.le (by positivity)
        _ = _ := by norm_num
    have hM : |Real.eulerMascheroniConstant / α| ≤ 16 := by rw [abs_of_pos p0]; exact p1
    exact ⟨_, div_is y1 ha α0.ne' (Within.huge_ok (Within.size hd hM) (by norm_num)), Within.rnd hd hM (by norm_num)⟩
  have w2 := Within.add (ρ := 1 / 2 ^ 43) 17 (Within.exact Is.one) w1 (abs_le.2 ⟨by linarith, by linarith⟩) (by norm_num) (by norm_num)
  have w3 := Within.add (ρ := 1 / 2 ^ 42) 18 w2 euler_within (abs_le.2 ⟨by linarith, by linarith⟩) (by norm_num) (by norm_num)
  exact Within.add 300 w3 w (abs_le.2 ⟨by norm_num; linarith, by norm_num; linarith⟩) (by norm_num) (by norm_num)
end

section
open B64
attribute [local instance] binary64 binary64_lawful B64.libm B64.specialFns B64.accurate B64.euler
variable {a b : F64} {s α : ℝ}

/-- C256 does not hold over all accepted parameters, in IEEE binary64 with correctly rounded elementary functions: the Pareto entropy is taken as the logarithm of
`xm/alpha * exp(1 + 1/alpha)`, which overflows for every shape up to 1/1024: `+inf` is returned although the entropy is a finite number. -/
theorem C256_pareto_violated {d : Pareto} (h : Pareto.new a b = .ok d) (ha : a.Is s) (hb : b.Is α) (hs : Ordinary s) (hα : Ordinary α) (h1 : α ≤ 1 / 1024) :
    d.shannonEntropy = pinf ∧ ∃ e, HasEntropy (Spec.paretoPDF s α) e := by
  obtain ⟨_, rfl⟩ := Pareto.new_ok.1 h
  have s0 := hs.pos
  have α0 := hα.pos
  refine ⟨?_, _, pareto_entropy s0 α0⟩
  have q := Rel.ord hb hα
  have i0 : 0 < 1 / α := by positivity
  have i1 : 1024 ≤ 1 / α := by rw [le_div_iff₀ α0]; linarith
  have y : Rel (1 + 1 / b) (1 + 1 / α) 68 2 := ((Rel.one.mono (k' := 67) (n' := 1) (by norm_num) (by norm_num)).add
    ((Rel.one.div q (by norm_num) (by norm_num)).mono (k' := 67) (n' := 1) (by norm_num) (by norm_num)) one_pos i0 (by norm_num) (by norm_num)).mono (by norm_num) (by norm_num)
  have u : Rel (a / b) (s / α) 120 1 := ((Rel.ord ha hs).div q (by norm_num) (by norm_num)).mono (by norm_num) (by norm_num)
  obtain ⟨_, _, x, hx, hxe⟩ := y
  rw [abs_of_pos (show 0 < 1 + 1 / α by linarith)] at hxe
  have x1 : 1024 ≤ x := by
    have := (abs_le.1 hxe).1
    norm_num at this
    norm_num at i1
    linarith
  have e1 : (1 + 1 / b).exp = pinf := by
    rw [exp_fin hx]
    refine round_pinf ?_
    show (2:ℝ) ^ 1024 ≤ Real.exp x
    calc (2:ℝ) ^ 1024 ≤ Real.exp 1 ^ 1024 := pow_le_pow_left₀ (by norm_num) (by have := Real.exp_one_gt_d9; linarith) _
      _ = Real.exp ((1024 : ℕ) * 1) := (Real.exp_nat_mul 1 1024).symm
      _ ≤ _ := Real.exp_le_exp.2 (by push_cast; linarith)
  obtain ⟨_, _, w, hw, hwe⟩ := u
  have v0 : 0 < s / α := by positivity
  rw [abs_of_pos v0] at hwe
  have w0 : 0 < w := by
    have := (abs_le.1 hwe).1
    norm_num at this
    linarith
  show (a / b * (1 + 1 / b).exp).ln = pinf
  have e2 : fin w * pinf = pinf := by
    change F64.mul (fin w) pinf = pinf
    simp [F64.mul, w0.ne', sinf, w0.le]
  rw [e1, hw.eq_fin w0.ne', e2]
  rfl

/-- non-vacuity of C256: concrete parameters meeting the hypotheses, in binary64 -/
example : ∃ d, Pareto.new (fin 2) (fin 3) = .ok d ∧ ∃ e, HasEntropy (Spec.paretoPDF 2 3) e ∧ AbsClose d.shannonEntropy e (1 / 2 ^ 40) :=
  ⟨_, Pareto.new_ok.2 ⟨lt_of_pos (by norm_num) (Is.fin _), rfl⟩, C256_pareto_partial (Pareto.new_ok.2 ⟨lt_of_pos (by norm_num) (Is.fin _), rfl⟩) (Is.fin _) (Is.fin _)
    ⟨by norm_num, by norm_num⟩ ⟨by norm_num, by norm_num⟩ (by norm_num)⟩
example : ∃ d, Pareto.new (fin 2) (fin (1 / 2048)) = .ok d ∧ d.shannonEntropy = pinf :=
  ⟨_, Pareto.new_ok.2 ⟨lt_of_pos (by norm_num) (Is.fin _), rfl⟩, (C256_pareto_violated (Pareto.new_ok.2 ⟨lt_of_pos (by norm_num) (Is.fin _), rfl⟩) (Is.fin _) (Is.fin _)
    ⟨by norm_num, by norm_num⟩ ⟨by norm_num, by norm_num⟩ (by norm_num)).1⟩
example : ∃ d, Weibull.new (fin 2) (fin 3) = .ok d ∧ ∃ e, HasEntropy (weibullPDF 2 3) e ∧ AbsClose d.shannonEntropy e (1 / 2 ^ 40) :=
  ⟨_, Weibull.new_ok.2 ⟨lt_of_pos (by norm_num) (Is.fin _), lt_of_pos (by norm_num) (Is.fin _), rfl⟩,
    C256_weibull (Weibull.new_ok.2 ⟨lt_of_pos (by norm_num) (Is.fin _), lt_of_pos (by norm_num) (Is.fin _), rfl⟩) (Is.fin _) (Is.fin _)
    ⟨by norm_num, by norm_num⟩ ⟨by norm_num, by norm_num⟩ (by norm_num)⟩
example : ∃ d, UvNormal.new (fin 2) (fin 3) = .ok d ∧ ∃ e, HasEntropy (ProbabilityTheory.gaussianPDFReal 2 (3:ℝ).toNNReal) e ∧ AbsClose d.shannonEntropy e (1 / 2 ^ 40) :=
  ⟨_, UvNormal.new_ok.2 ⟨lt_of_pos (by norm_num) (Is.fin _), rfl⟩, C256_normal (UvNormal.new_ok.2 ⟨lt_of_pos (by norm_num) (Is.fin _), rfl⟩) (Is.fin _)
    ⟨by norm_num, by norm_num⟩⟩
example : ∃ d, GeneralisedExtremeValue.new (fin 0) (fin 3) (fin (1 / 8)) = .ok d ∧ ∃ e, HasEntropy (gevPDF 0 3 (1 / 8)) e ∧ AbsClose d.shannonEntropy e (1 / 2 ^ 38) :=
  ⟨_, GeneralisedExtremeValue.new_ok.2 ⟨lt_of_pos (by norm_num) (Is.fin _), lt_of_pos (by norm_num) (Is.fin _), rfl⟩,
    C256_gev (GeneralisedExtremeValue.new_ok.2 ⟨lt_of_pos (by norm_num) (Is.fin _), lt_of_pos (by norm_num) (Is.fin _), rfl⟩) (Is.fin _) (Is.fin _)
    ⟨by norm_num, by norm_num⟩ (by norm_num)⟩
end
end Rstat
