import Verif.Props.FloatPdf2
import Verif.Props.FloatCdf2
import Verif.Props.FloatCdf4
import Verif.Props.FloatCdf5
import Verif.Props.Normal
import Verif.Props.Dist.LogNormal
import Verif.Props.Dist.FoldedNormal
import Verif.Props.Dist.Levy
import Verif.Props.Dist.StudentT
import Verif.Props.Dist.Bernoulli
import Verif.Props.Dist.Geometric
import Verif.Props.Dist.Erlang
import Verif.Props.Dist.BetaBinomial
import Verif.Props.Dist.Cosine
import Verif.Props.Dist.Triangular
import Verif.Props.Dist.Binomial
import Verif.Props.Dist.Beta
import Verif.Props.Dist.BetaPrime
import Verif.Props.Dist.InvNormal
import Verif.Model.Dist.Degenerate

/-! C222-C224: NaN arguments, NaN parameters and infinite parameters. All theorems hold in every arithmetic (`FP` is arbitrary) unless a contract
is named: they follow from the IEEE rules for NaN and the infinities alone. -/
set_option linter.unusedSectionVars false
namespace Rstat
open F64 Consts Classical

/-- the special functions propagate NaN (cephes does) -/
class FP.NaNFns [FP] : Prop where
  norm_nan : FP.sNorm nan = nan
  erf_nan : FP.sErf nan = nan
  erfc_nan : FP.sErfc nan = nan
  gammainc_nan : ∀ k, FP.sGammainc k nan = nan
  betainc_nan : ∀ a b, FP.sBetainc nan a b = nan

/-- the binary64 arithmetic of this development satisfies the contract -/
theorem B64.nanFns : @FP.NaNFns binary64 := by
  let _ := binary64
  exact ⟨rfl, rfl, rfl, fun _ => rfl, fun _ _ => rfl⟩

section
variable [FP]
theorem nan_sub' (a : F64) : nan - a = nan := rfl
theorem sub_nan' (a : F64) : a - nan = nan := add_nan _
theorem neg_nan' : -(nan : F64) = nan := rfl
theorem exp_nan' : (nan : F64).exp = nan := rfl
theorem sqrt_nan' : (nan : F64).sqrt = nan := rfl
theorem asin_nan' : (nan : F64).asin = nan := rfl
theorem atan_nan' : (nan : F64).atan = nan := rfl
theorem sin_nan' : (nan : F64).sin = nan := rfl
theorem ln_nan' : (nan : F64).ln = nan := rfl
theorem abs_nan' : (nan : F64).abs = nan := rfl
theorem powf_nan' {b : F64} (hb : ¬ b.Is 0) : (nan : F64).powf b = nan := by
  unfold F64.powf
  rw [if_neg, if_neg (fun h => h.1)]
  · rintro ⟨h1, h2⟩
    refine hb ?_
    cases b
    · exact h1.elim
    · exact h1.elim
    · exact h1.elim
    · exact Or.inr ⟨rfl, rfl⟩
    · have h2' : _ = (0 : ℝ) := h2
      subst h2'; exact Is.fin 0
theorem invalid_nan : ¬ (⟨nan⟩ : Probability).isValid := fun h => F64.not_nan_le _ h.1
theorem pos_ne_zero {a : F64} (h : 0 < a) : ¬ a.Is 0 := fun h0 => by
  have := pos_of_lt h h0
  exact lt_irrefl _ this
theorem neg_ne_zero' {a : F64} (h : 0 < a) : ¬ (-a).Is 0 := fun h0 => by
  have h1 := h0.neg
  have e : - -a = a ∨ (- -a).ext = a.ext := Or.inr (by
    show (F64.neg (F64.neg a)).ext = a.ext
    cases a <;> simp [F64.neg] <;> split_ifs <;> simp_all)
  rcases e with e | e
  · rw [e] at h1; exact pos_ne_zero h (by simpa using h1)
  · have : a.ext = some ((-0 : ℝ) : EReal) := by rw [← e]; exact h1.ext_eq
    obtain ⟨x, y, hx, hy, hxy⟩ := h
    rw [this] at hy; cases hy; cases hx
    simp at hxy

/-! ### C222: the argument is NaN -/

/-- C222 (violated, IEEE rules only): whatever the arithmetic and whatever the parameters, `cdf(NaN)` is not a valid probability -/
theorem C222_arithmetic_violated :
    (∀ d : Arcsine, ¬ (d.cdf nan).isValid) ∧ (∀ d : Cauchy, ¬ (d.cdf nan).isValid) ∧ (∀ d : Cosine, ¬ (d.cdf nan).isValid) ∧
    (∀ d : Exponential, ¬ (d.cdf nan).isValid) ∧ (∀ d : Gumbel, ¬ (d.cdf nan).isValid) ∧ (∀ d : Laplace, ¬ (d.cdf nan).isValid) ∧
    (∀ d : Logistic, ¬ (d.cdf nan).isValid) ∧ (∀ d : Rayleigh, ¬ (d.cdf nan).isValid) ∧ (∀ d : UniformF, ¬ (d.cdf nan).isValid) ∧
    (∀ d : StudentT, ¬ (d.cdf nan).isValid) := by
  refine ⟨?_, ?_, ?_, ?_, ?_, ?_, ?_, ?_, ?_, ?_⟩ <;> intro d
  · simp only [Arcsine.cdf, nan_sub', nan_div, sqrt_nan', asin_nan', mul_nan, not_isValid_nan, not_false_iff]
  · simp only [Cauchy.cdf, Cauchy.z, nan_sub', nan_div, atan_nan', mul_nan, nan_add, not_isValid_nan, not_false_iff]
  · simp only [Cosine.cdf, Cosine.z, nan_sub', nan_div, add_nan, mul_nan, nan_add, not_isValid_nan, not_false_iff]
  · simp only [Exponential.cdf, mul_nan, exp_nan', sub_nan', not_isValid_nan, not_false_iff]
  · simp only [Gumbel.cdf, Gumbel.z, nan_sub', nan_div, neg_nan', exp_nan', not_isValid_nan, not_false_iff]
  · simp only [Laplace.cdf, nan_sub', abs_nan', nan_div, neg_nan', exp_nan', not_isValid_nan, not_false_iff]
  · simp only [Logistic.cdf, Logistic.z, nan_sub', nan_div, neg_nan', exp_nan', add_nan, div_nan, not_isValid_nan, not_false_iff]
  · simp only [Rayleigh.cdf, neg_nan', nan_mul, nan_div, exp_nan', sub_nan', not_isValid_nan, not_false_iff]
  · simp only [UniformF.cdf, F64.not_nan_lt, F64.not_le_nan, if_false, nan_sub', nan_mul, not_isValid_nan, not_false_iff]
  · simp only [StudentT.cdf, nan_mul, nan_div, add_nan, not_isValid_nan, not_false_iff]

/-- C222 (violated): the same for the power-law distributions and every accepted parameter; for the generalised Pareto law unless `-1/ζ` is a zero -/
theorem C222_power_violated {a b c : F64} :
    (∀ {d : Pareto}, Pareto.new a b = .ok d → ¬ (d.cdf nan).isValid) ∧
    (∀ {d : Kumaraswamy}, Kumaraswamy.new a b = .ok d → ¬ (d.cdf nan).isValid) ∧
    (∀ {d : Frechet}, Frechet.new a = .ok d → ¬ (d.cdf nan).isValid) ∧
    (∀ {d : GeneralisedPareto}, GeneralisedPareto.new a b c = .ok d → ¬ (fin (-1) / c).Is 0 → ¬ (d.cdf nan).isValid) ∧
    (∀ {d : GeneralisedExtremeValue}, GeneralisedExtremeValue.new a b c = .ok d → ¬ (fin (-1) / c).Is 0 → ¬ (d.cdf nan).isValid) := by
  refine ⟨?_, ?_, ?_, ?_, ?_⟩ <;> intro d h
  · obtain ⟨h0, rfl⟩ := Pareto.new_ok.1 h
    simp only [Pareto.cdf, div_nan, powf_nan' (pos_ne_zero h0), sub_nan', not_isValid_nan, not_false_iff]
  · obtain ⟨h0, h1, rfl⟩ := Kumaraswamy.new_ok.1 h
    simp only [Kumaraswamy.cdf, powf_nan' (pos_ne_zero h0), powf_nan' (pos_ne_zero h1), sub_nan', not_isValid_nan, not_false_iff]
  · obtain ⟨h0, rfl⟩ := Frechet.new_ok.1 h
    simp only [Frechet.cdf, powf_nan' (neg_ne_zero' h0), neg_nan', exp_nan', not_isValid_nan, not_false_iff]
  · intro hz
    obtain ⟨h0, h1, rfl⟩ := GeneralisedPareto.new_ok.1 h
    simp only [GeneralisedPareto.cdf, nan_sub', nan_div, mul_nan, add_nan, powf_nan' hz, sub_nan', not_isValid_nan, not_false_iff]
  · intro hz
    obtain ⟨h0, h1, rfl⟩ := GeneralisedExtremeValue.new_ok.1 h
    simp only [GeneralisedExtremeValue.cdf, GeneralisedExtremeValue.tFunc, nan_sub', nan_div, neg_nan', mul_nan, add_nan, powf_nan' hz, exp_nan',
      ite_self, not_isValid_nan, not_false_iff]

/-- C222 (violated, special functions that propagate NaN): the distributions computed with `norm`, `erf`, `erfc`, `gammainc` and `betainc` -/
theorem C222_special_violated [FP.NaNFns] :
    (∀ d : UvNormal, ¬ (d.cdf nan).isValid) ∧ (∀ d : LogNormal, ¬ (d.cdf nan).isValid) ∧ (∀ d : FoldedNormal, ¬ (d.cdf nan).isValid) ∧
    (∀ d : InvNormal, ¬ (d.cdf nan).isValid) ∧ (∀ d : Levy, ¬ (d.cdf nan).isValid) ∧ (∀ d : Gamma, ¬ (d.cdf nan).isValid) ∧
    (∀ d : ChiSq, ¬ (d.cdf nan).isValid) ∧ (∀ d : Chi, ¬ (d.cdf nan).isValid) ∧ (∀ d : InvGamma, ¬ (d.cdf nan).isValid) ∧
    (∀ d : BetaDist, ¬ (d.cdf nan).isValid) ∧ (∀ d : BetaPrime, ¬ (d.cdf nan).isValid) ∧ (∀ d : FDist, ¬ (d.cdf nan).isValid) := by
  have n1 : (nan : F64).norm = nan := FP.NaNFns.norm_nan
  have n2 : (nan : F64).erf = nan := FP.NaNFns.erf_nan
  have n3 : (nan : F64).erfc = nan := FP.NaNFns.erfc_nan
  have n4 : ∀ k : F64, k.gammainc nan = nan := FP.NaNFns.gammainc_nan
  have n5 : ∀ a b : F64, (nan : F64).betainc a b = nan := FP.NaNFns.betainc_nan
  have key : ∀ d : UvNormal, d.cdf nan = Probability.newUnchecked nan := fun d => by
    simp only [UvNormal.cdf, UvNormal.z, nan_sub', nan_div, n1]
  refine ⟨?_, ?_, ?_, ?_, ?_, ?_, ?_, ?_, ?_, ?_, ?_, ?_⟩ <;> intro d
  · rw [key]; exact not_isValid_nan
  · unfold LogNormal.cdf; rw [ln_nan', key]; exact not_isValid_nan
  · simp only [FoldedNormal.cdf, nan_add, nan_sub', nan_div, n2, mul_nan, not_isValid_nan, not_false_iff]
  · simp only [InvNormal.cdf, nan_div, div_nan, nan_sub', sqrt_nan', mul_nan, key]
    simp only [Probability.unwrap, Probability.newUnchecked, nan_add]; exact invalid_nan
  · simp only [Levy.cdf, nan_sub', div_nan, n3, not_isValid_nan, not_false_iff]
  · simp only [Gamma.cdf, mul_nan, n4, nan_div, not_isValid_nan, not_false_iff]
  · simp only [ChiSq.cdf, nan_div, n4, not_isValid_nan, not_false_iff]
  · simp only [Chi.cdf, nan_mul, nan_div, n4, not_isValid_nan, not_false_iff]
  · simp only [InvGamma.cdf, div_nan, n4, nan_div, not_isValid_nan, not_false_iff]
  · simp only [BetaDist.cdf, n5, not_isValid_nan, not_false_iff]
  · simp only [BetaPrime.cdf, nan_div, n5, not_isValid_nan, not_false_iff]
  · simp only [FDist.cdf, mul_nan, nan_div, n5, not_isValid_nan, not_false_iff]

/-- C222 (violated): the Laplace density panics at NaN -/
theorem C222_laplace_pdf_violated (d : Laplace) : ∃ e, d.pdf nan = .error e := by
  unfold Laplace.pdf
  have h1 : ¬ (nan : F64).feq d.mu := by rintro ⟨x, h, -⟩; cases h
  have h2 : ¬ d.mu < (nan : F64) := F64.not_lt_nan _
  simp only [F64.not_nan_lt, h1, h2, or_self, if_false]
  exact ⟨_, rfl⟩

/-- C222 (what holds): the Weibull, triangular and degenerate laws, which compare before they compute, return a valid probability at NaN -/
theorem C222_cdf_nan_partial [FP.Lawful] :
    (∀ d : Weibull, d.cdf nan = Probability.zero ∧ (d.cdf nan).isValid) ∧
    (∀ d : Triangular, d.cdf nan = Probability.one ∧ (d.cdf nan).isValid) ∧
    (∀ d : DegenerateF, d.cdf nan = Probability.one ∧ (d.cdf nan).isValid) := by
  have hz : Probability.zero.isValid := ⟨Is.zero.le_iff Is.one |>.2 zero_le_one, Is.zero.le_iff Is.zero |>.2 le_rfl⟩
  have ho : Probability.one.isValid := ⟨Is.one.le_iff Is.one |>.2 le_rfl, Is.zero.le_iff Is.one |>.2 zero_le_one⟩
  refine ⟨fun d => ?_, fun d => ?_, fun d => ?_⟩
  · have : d.cdf nan = Probability.zero := by simp only [Weibull.cdf, F64.not_le_nan, if_false]
    exact ⟨this, this ▸ hz⟩
  · have : d.cdf nan = Probability.one := by simp only [Triangular.cdf, F64.not_nan_le, if_false]
    exact ⟨this, this ▸ ho⟩
  · have : d.cdf nan = Probability.one := by simp only [DegenerateF.cdf, F64.not_nan_lt, if_false]
    exact ⟨this, this ▸ ho⟩

/-! ### C223: a parameter is NaN -/

/-- C223 (violated): a NaN location (and, for Student's law, a NaN number of degrees of freedom; for Pareto's law, a NaN scale) is accepted, and no
value of the `cdf` of the distribution so constructed is a valid probability -/
theorem C223_arithmetic_violated {s : F64} (hs : 0 < s) :
    (∃ d, Arcsine.new nan s = .ok d ∧ ∀ x, ¬ (d.cdf x).isValid) ∧ (∃ d, Cauchy.new nan s = .ok d ∧ ∀ x, ¬ (d.cdf x).isValid) ∧
    (∃ d, Cosine.new nan s = .ok d ∧ ∀ x, ¬ (d.cdf x).isValid) ∧ (∃ d, Gumbel.new nan s = .ok d ∧ ∀ x, ¬ (d.cdf x).isValid) ∧
    (∃ d, Laplace.new nan s = .ok d ∧ ∀ x, ¬ (d.cdf x).isValid) ∧ (∃ d, Logistic.new nan s = .ok d ∧ ∀ x, ¬ (d.cdf x).isValid) ∧
    (∃ d, UniformF.new nan s = .ok d ∧ ∀ x, ¬ (d.cdf x).isValid) ∧ (∃ d, Pareto.new nan s = .ok d ∧ ∀ x, ¬ (d.cdf x).isValid) ∧
    (∃ d, StudentT.new nan = .ok d ∧ ∀ x, ¬ (d.cdf x).isValid) := by
  refine ⟨⟨_, Arcsine.new_ok.2 ⟨hs, rfl⟩, fun x => ?_⟩, ⟨_, Cauchy.new_ok.2 ⟨hs, rfl⟩, fun x => ?_⟩, ⟨_, Cosine.new_ok.2 ⟨hs, rfl⟩, fun x => ?_⟩,
    ⟨_, Gumbel.new_ok.2 ⟨hs, rfl⟩, fun x => ?_⟩, ⟨_, Laplace.new_ok.2 ⟨hs, rfl⟩, fun x => ?_⟩, ⟨_, Logistic.new_ok.2 ⟨hs, rfl⟩, fun x => ?_⟩,
    ⟨_, UniformF.new_ok.2 ⟨hs, rfl⟩, fun x => ?_⟩, ⟨_, Pareto.new_ok.2 ⟨hs, rfl⟩, fun x => ?_⟩, ⟨_, StudentT.new_ok.2 rfl, fun x => ?_⟩⟩
  · simp only [Arcsine.cdf, sub_nan', nan_div, sqrt_nan', asin_nan', mul_nan, not_isValid_nan, not_false_iff]
  · simp only [Cauchy.cdf, Cauchy.z, sub_nan', nan_div, atan_nan', mul_nan, nan_add, not_isValid_nan, not_false_iff]
  · simp only [Cosine.cdf, Cosine.z, sub_nan', nan_div, add_nan, mul_nan, nan_add, not_isValid_nan, not_false_iff]
  · simp only [Gumbel.cdf, Gumbel.z, sub_nan', nan_div, neg_nan', exp_nan', not_isValid_nan, not_false_iff]
  · simp only [Laplace.cdf, sub_nan', abs_nan', nan_div, neg_nan', exp_nan', not_isValid_nan, not_false_iff]
  · simp only [Logistic.cdf, Logistic.z, sub_nan', nan_div, neg_nan', exp_nan', add_nan, div_nan, not_isValid_nan, not_false_iff]
  · simp only [UniformF.cdf, F64.not_lt_nan, nan_add, F64.not_nan_le, if_false, sub_nan', nan_mul, not_isValid_nan, not_false_iff]
  · simp only [Pareto.cdf, nan_div, powf_nan' (pos_ne_zero hs), sub_nan', not_isValid_nan, not_false_iff]
  · simp only [StudentT.cdf, nan_mul, nan_div, nan_add, sqrt_nan', div_nan, add_nan, not_isValid_nan, not_false_iff]

/-- C223 (violated): the same for the generalised laws, and, when the special functions propagate NaN, for the normal family. (The normal `cdf` answers 0
and 1 at the infinities before it looks at the parameters.) -/
theorem C223_special_violated [FP.NaNFns] {s c : F64} (hs : 0 < s) (hc : 0 < c) :
    (¬ (fin (-1) / c).Is 0 → ∃ d, GeneralisedPareto.new nan s c = .ok d ∧ ∀ x, ¬ (d.cdf x).isValid) ∧
    (¬ (fin (-1) / c).Is 0 → ∃ d, GeneralisedExtremeValue.new nan s c = .ok d ∧ ∀ x, ¬ (d.cdf x).isValid) ∧
    (∃ d, UvNormal.new nan s = .ok d ∧ ∀ x, ¬ x.isInf → ¬ (d.cdf x).isValid) ∧
    (∃ d, LogNormal.new nan s = .ok d ∧ ∀ x, ¬ x.ln.isInf → ¬ (d.cdf x).isValid) ∧
    (∃ d, FoldedNormal.new nan s = .ok d ∧ ∀ x, ¬ (d.cdf x).isValid) ∧ (∃ d, Levy.new nan s = .ok d ∧ ∀ x, ¬ (d.cdf x).isValid) := by
  have n1 : (nan : F64).norm = nan := FP.NaNFns.norm_nan
  have n2 : (nan : F64).erf = nan := FP.NaNFns.erf_nan
  have n3 : (nan : F64).erfc = nan := FP.NaNFns.erfc_nan
  have key : ∀ x : F64, ¬ x.isInf → UvNormal.cdf ⟨nan, s⟩ x = Probability.newUnchecked nan := fun x hx => by
    cases x
    · simp only [UvNormal.cdf, UvNormal.z, sub_nan', nan_div, n1]
    · exact absurd trivial hx
    · exact absurd trivial hx
    · simp only [UvNormal.cdf, UvNormal.z, sub_nan', nan_div, n1]
    · simp only [UvNormal.cdf, UvNormal.z, sub_nan', nan_div, n1]
  refine ⟨fun hz => ⟨_, GeneralisedPareto.new_ok.2 ⟨hs, hc, rfl⟩, fun x => ?_⟩, fun hz => ⟨_, GeneralisedExtremeValue.new_ok.2 ⟨hs, hc, rfl⟩, fun x => ?_⟩,
    ⟨_, UvNormal.new_ok.2 ⟨hs, rfl⟩, fun x hx => ?_⟩, ⟨_, LogNormal.new_ok.2 ⟨hs, rfl⟩, fun x hx => ?_⟩,
    ⟨_, FoldedNormal.new_ok.2 ⟨hs, rfl⟩, fun x => ?_⟩, ⟨_, Levy.new_ok.2 ⟨hs, rfl⟩, fun x => ?_⟩⟩
  · simp only [GeneralisedPareto.cdf, sub_nan', nan_div, mul_nan, add_nan, powf_nan' hz, not_isValid_nan, not_false_iff]
  · simp only [GeneralisedExtremeValue.cdf, GeneralisedExtremeValue.tFunc, sub_nan', nan_div, neg_nan', mul_nan, add_nan, powf_nan' hz, exp_nan',
      ite_self, not_isValid_nan, not_false_iff]
  · rw [key x hx]; exact not_isValid_nan
  · unfold LogNormal.cdf; rw [key _ hx]; exact not_isValid_nan
  · simp only [FoldedNormal.cdf, add_nan, nan_add, nan_div, n2, mul_nan, not_isValid_nan, not_false_iff]
  · simp only [Levy.cdf, sub_nan', div_nan, n3, not_isValid_nan, not_false_iff]

/-- C223 (violated): the triangular and degenerate laws accept a NaN location too, and then report that all mass lies at or below every argument,
negative infinity included -/
theorem C223_comparing_violated {p q : F64} (hp : 0 < p) (hq : 0 < q) :
    (∃ d, Triangular.new nan p q = .ok d ∧ ∀ x, d.cdf x = Probability.one) ∧ (∀ x, (DegenerateF.new nan).cdf x = Probability.one) := by
  refine ⟨⟨_, Triangular.new_ok.2 ⟨hp, hq, rfl⟩, fun x => ?_⟩, fun x => ?_⟩
  · simp only [Triangular.cdf, Triangular.c, Triangular.b, nan_add, F64.not_le_nan, if_false]
  · simp only [DegenerateF.new, DegenerateF.cdf, F64.not_lt_nan, if_false]

/-- C223 (what holds): scales, shapes, rates and probabilities are never NaN in an accepted distribution -/
theorem C223_refused_partial (a b c : F64) (n : ℕ) :
    (∀ d, Exponential.new nan ≠ .ok d) ∧ (∀ d, Rayleigh.new nan ≠ .ok d) ∧ (∀ d, Frechet.new nan ≠ .ok d) ∧ (∀ d, Poisson.new nan ≠ .ok d) ∧
    (∀ d, Bernoulli.new nan ≠ .ok d) ∧ (∀ d, Geometric.new nan ≠ .ok d) ∧ (∀ d, Binomial.new n ⟨nan⟩ ≠ .ok d) ∧ (∀ d, Erlang.new n nan ≠ .ok d) ∧
    (∀ d, Weibull.new nan b ≠ .ok d) ∧ (∀ d, Weibull.new a nan ≠ .ok d) ∧ (∀ d, Kumaraswamy.new nan b ≠ .ok d) ∧ (∀ d, Kumaraswamy.new a nan ≠ .ok d) ∧
    (∀ d, Gamma.new nan b ≠ .ok d) ∧ (∀ d, Gamma.new a nan ≠ .ok d) ∧ (∀ d, InvGamma.new nan b ≠ .ok d) ∧ (∀ d, InvGamma.new a nan ≠ .ok d) ∧
    (∀ d, BetaDist.new nan b ≠ .ok d) ∧ (∀ d, BetaDist.new a nan ≠ .ok d) ∧ (∀ d, BetaPrime.new nan b ≠ .ok d) ∧ (∀ d, BetaPrime.new a nan ≠ .ok d) ∧
    (∀ d, BetaBinomial.new n nan b ≠ .ok d) ∧ (∀ d, BetaBinomial.new n a nan ≠ .ok d) ∧ (∀ d, InvNormal.new nan b ≠ .ok d) ∧
    (∀ d, InvNormal.new a nan ≠ .ok d) ∧ (∀ d, Arcsine.new a nan ≠ .ok d) ∧ (∀ d, Cauchy.new a nan ≠ .ok d) ∧ (∀ d, Cosine.new a nan ≠ .ok d) ∧
    (∀ d, Gumbel.new a nan ≠ .ok d) ∧ (∀ d, Laplace.new a nan ≠ .ok d) ∧ (∀ d, Logistic.new a nan ≠ .ok d) ∧ (∀ d, UniformF.new a nan ≠ .ok d) ∧
    (∀ d, Pareto.new a nan ≠ .ok d) ∧ (∀ d, Levy.new a nan ≠ .ok d) ∧ (∀ d, FoldedNormal.new a nan ≠ .ok d) ∧ (∀ d, LogNormal.new a nan ≠ .ok d) ∧
    (∀ d, UvNormal.new a nan ≠ .ok d) ∧ (∀ d, Triangular.new a nan b ≠ .ok d) ∧ (∀ d, Triangular.new a b nan ≠ .ok d) ∧
    (∀ d, GeneralisedPareto.new a nan c ≠ .ok d) ∧ (∀ d, GeneralisedPareto.new a b nan ≠ .ok d) ∧
    (∀ d, GeneralisedExtremeValue.new a nan c ≠ .ok d) ∧ (∀ d, GeneralisedExtremeValue.new a b nan ≠ .ok d) := by
  simp only [ne_eq, Exponential.new_ok, Rayleigh.new_ok, Frechet.new_ok, Poisson.new_ok, Bernoulli.new_ok, Geometric.new_ok, Binomial.new_ok, Erlang.new_ok,
    Weibull.new_ok, Kumaraswamy.new_ok, Gamma.new_ok, InvGamma.new_ok, BetaDist.new_ok, BetaPrime.new_ok, BetaBinomial.new_ok, InvNormal.new_ok,
    Arcsine.new_ok, Cauchy.new_ok, Cosine.new_ok, Gumbel.new_ok, Laplace.new_ok, Logistic.new_ok, UniformF.new_ok, Pareto.new_ok, Levy.new_ok,
    FoldedNormal.new_ok, LogNormal.new_ok, UvNormal.new_ok, Triangular.new_ok, GeneralisedPareto.new_ok, GeneralisedExtremeValue.new_ok,
    F64.not_lt_nan, F64.not_le_nan, false_and, and_false, not_false_iff, implies_true, and_self]

/-! ### C224: a parameter is infinite -/
theorem pos_pinf : (0 : F64) < pinf := lt_pinf Is.zero
theorem pinf_div_pinf : (pinf : F64) / pinf = nan := by
  show F64.div pinf pinf = nan
  simp [F64.div, F64.isInf]
theorem ninf_div_pinf : (ninf : F64) / pinf = nan := by
  show F64.div ninf pinf = nan
  simp [F64.div, F64.isInf]
theorem szero_is (P : Prop) : (szero P).Is 0 := by
  unfold szero
  by_cases h : P
  · rw [if_pos h]; exact Or.inr ⟨rfl, rfl⟩
  · rw [if_neg h]; exact Is.fin 0
theorem sinf_cases (P : Prop) : sinf P = pinf ∨ sinf P = ninf := by
  unfold sinf
  by_cases h : P
  · rw [if_pos h]; exact Or.inr rfl
  · rw [if_neg h]; exact Or.inl rfl
theorem fin_div_pinf {a : F64} (ha : a.isFinite) : (a / pinf).Is 0 := by
  show (F64.div a pinf).Is 0
  cases a
  · exact ha.elim
  · exact ha.elim
  · exact ha.elim
  all_goals
    simp only [F64.div, F64.isInf, ↓reduceIte]
    exact szero_is _
theorem zero_mul_pinf {a : F64} (ha : a.Is 0) : a * pinf = nan := by
  show F64.mul a pinf = nan
  rcases ha with rfl | ⟨rfl, -⟩
  · simp [F64.mul, F64.isInf, F64.isFinite, F64.toReal]
  · simp [F64.mul, F64.isInf, F64.isFinite, F64.toReal]
/-- dividing by infinity and multiplying back is never a number -/
theorem div_mul_pinf (a : F64) : a / pinf * pinf = nan := by
  cases a
  · rw [nan_div, nan_mul]
  · rw [pinf_div_pinf, nan_mul]
  · rw [ninf_div_pinf, nan_mul]
  · exact zero_mul_pinf (fin_div_pinf trivial)
  · exact zero_mul_pinf (fin_div_pinf trivial)
theorem pinf_sub_fin {a : F64} (ha : a.isFinite) : pinf - a = pinf := by
  show F64.add pinf (F64.neg a) = pinf
  cases a
  · exact ha.elim
  · exact ha.elim
  · exact ha.elim
  · rfl
  · simp only [F64.neg]; split_ifs <;> rfl
theorem pinf_div_cases (x : F64) : pinf / x = nan ∨ pinf / x = pinf ∨ pinf / x = ninf := by
  show F64.div pinf x = nan ∨ F64.div pinf x = pinf ∨ F64.div pinf x = ninf
  cases x
  · exact Or.inl rfl
  all_goals
    simp only [F64.div, F64.isInf, ↓reduceIte]
    first | exact Or.inl trivial | exact Or.inr (sinf_cases _)
theorem inf_powf_pos {b : F64} (hb : 0 < b) : (pinf.powf b = pinf ∨ pinf.powf b = ninf) ∧ (ninf.powf b = pinf ∨ ninf.powf b = ninf) := by
  have h0 : ¬ (b.isFinite ∧ b.toReal = 0) := fun h => by
    refine pos_ne_zero hb ?_
    obtain ⟨h1, h2⟩ := h
    cases b
    · exact h1.elim
    · exact h1.elim
    · exact h1.elim
    · exact Or.inr ⟨rfl, rfl⟩
    · have h2' : _ = (0 : ℝ) := h2
      subst h2'; exact Is.fin 0
  unfold F64.powf
  rw [if_neg h0, if_neg h0, if_neg (fun h => h.1), if_neg (fun h => h.1)]
  cases b
  · exact (F64.not_lt_nan _ hb).elim
  · simp [F64.isFinite]
  · exact (not_lt_ninf hb).elim
  · exact absurd (pos_ne_zero hb (Or.inr ⟨rfl, rfl⟩)) (by simp)
  · rename_i r
    have hr : 0 < r := pos_of_lt hb (Is.fin r)
    have hr' : 0 < (fin r).toReal := hr
    simp only [hr', if_true, sinf]
    refine ⟨Or.inl trivial, ?_⟩
    split_ifs <;> simp

/-- C224 (violated): a Rayleigh distribution with infinite scale and a Pareto distribution with infinite scale (and any accepted shape) are constructed,
and no value of their `cdf` is a valid probability -/
theorem C224_everywhere_violated {b : F64} (hb : 0 < b) :
    (∃ d, Rayleigh.new pinf = .ok d ∧ ∀ x, ¬ (d.cdf x).isValid) ∧ (∃ d, Pareto.new pinf b = .ok d ∧ ∀ x, ¬ (d.cdf x).isValid) := by
  refine ⟨⟨_, Rayleigh.new_ok.2 ⟨pos_pinf, rfl⟩, fun x => ?_⟩, ⟨_, Pareto.new_ok.2 ⟨hb, rfl⟩, fun x => ?_⟩⟩
  · simp only [Rayleigh.cdf, div_mul_pinf, nan_div, exp_nan', sub_nan', not_isValid_nan, not_false_iff]
  · have hi : ∀ y : F64, y = pinf ∨ y = ninf → ¬ (Probability.newUnchecked (1 - y)).isValid := by
      rintro y (rfl | rfl) ⟨h1, h2⟩
      · exact not_le_ninf Is.zero h2
      · exact not_pinf_le Is.one h1
    unfold Pareto.cdf
    rcases pinf_div_cases x with e | e | e
    · dsimp only; rw [e, powf_nan' (pos_ne_zero hb)]; exact not_isValid_nan
    · dsimp only; rw [e]; exact hi _ (inf_powf_pos hb).1
    · dsimp only; rw [e]; exact hi _ (inf_powf_pos hb).2

/-- C224 (violated): an infinite rate, scale or location is accepted, and the `cdf` is not a valid probability at an end of the support: 0 for the
exponential law, positive infinity for the others -/
theorem C224_ends_violated {a k s : F64} (ha : a.isFinite) (hk : 0 < k) (hs : 0 < s) :
    (∃ d, Exponential.new pinf = .ok d ∧ ¬ (d.cdf 0).isValid) ∧ (∃ d, Weibull.new pinf k = .ok d ∧ ¬ (d.cdf pinf).isValid) ∧
    (∃ d, Cauchy.new a pinf = .ok d ∧ ¬ (d.cdf pinf).isValid) ∧ (∃ d, Cauchy.new pinf s = .ok d ∧ ¬ (d.cdf pinf).isValid) ∧
    (∃ d, Gumbel.new a pinf = .ok d ∧ ¬ (d.cdf pinf).isValid) ∧ (∃ d, Gumbel.new pinf s = .ok d ∧ ¬ (d.cdf pinf).isValid) ∧
    (∃ d, Logistic.new a pinf = .ok d ∧ ¬ (d.cdf pinf).isValid) ∧ (∃ d, Logistic.new pinf s = .ok d ∧ ¬ (d.cdf pinf).isValid) ∧
    (∃ d, Laplace.new a pinf = .ok d ∧ ¬ (d.cdf pinf).isValid) ∧ (∃ d, Laplace.new pinf s = .ok d ∧ ¬ (d.cdf pinf).isValid) := by
  have hpp : (pinf : F64) - pinf = nan := rfl
  refine ⟨⟨_, Exponential.new_ok.2 ⟨pos_pinf, rfl⟩, ?_⟩, ⟨_, Weibull.new_ok.2 ⟨pos_pinf, hk, rfl⟩, ?_⟩, ⟨_, Cauchy.new_ok.2 ⟨pos_pinf, rfl⟩, ?_⟩,
    ⟨_, Cauchy.new_ok.2 ⟨hs, rfl⟩, ?_⟩, ⟨_, Gumbel.new_ok.2 ⟨pos_pinf, rfl⟩, ?_⟩, ⟨_, Gumbel.new_ok.2 ⟨hs, rfl⟩, ?_⟩,
    ⟨_, Logistic.new_ok.2 ⟨pos_pinf, rfl⟩, ?_⟩, ⟨_, Logistic.new_ok.2 ⟨hs, rfl⟩, ?_⟩, ⟨_, Laplace.new_ok.2 ⟨pos_pinf, rfl⟩, ?_⟩,
    ⟨_, Laplace.new_ok.2 ⟨hs, rfl⟩, ?_⟩⟩
  · have e : -(pinf : F64) * 0 = nan := by
      change F64.mul ninf (fin 0) = nan
      simp [F64.mul, F64.isInf, F64.isFinite, F64.toReal]
    simp only [Exponential.cdf, e, exp_nan', sub_nan', not_isValid_nan, not_false_iff]
  · have e : (0 : F64) ≤ pinf := le_pinf Is.zero
    simp only [Weibull.cdf, e, if_true, pinf_div_pinf, powf_nan' (pos_ne_zero hk), neg_nan', exp_nan', sub_nan', not_isValid_nan, not_false_iff]
  all_goals simp only [Cauchy.cdf, Cauchy.z, Gumbel.cdf, Gumbel.z, Logistic.cdf, Logistic.z, Laplace.cdf, pinf_sub_fin ha, pinf_div_pinf, hpp, nan_div, atan_nan',
    mul_nan, nan_add, add_nan, div_nan, neg_nan', exp_nan', abs_nan', show (pinf : F64).abs = pinf from rfl, not_isValid_nan, not_false_iff]

/-- C224 (what holds): the normal law with infinite variance and finite mean answers with a valid probability at the infinities and wherever the
difference between the argument and the mean does not overflow -/
theorem C224_normal_partial [FP.Lawful] [FP.Libm] [FP.SpecialFns] {a : F64} (ha : a.isFinite) :
    ∃ d, UvNormal.new a pinf = .ok d ∧ (∀ x, x.isFinite → (x - a).isFinite → (d.cdf x).isValid) ∧ (d.cdf ninf).val = 0 ∧ (d.cdf pinf).val = 1 := by
  refine ⟨_, UvNormal.new_ok.2 ⟨pos_pinf, rfl⟩, fun x hx hd => ?_, rfl, rfl⟩
  have hv : ∀ z : F64, z ≠ nan → (Probability.newUnchecked z.norm).isValid := fun z hz => ⟨(norm_valid hz).2, (norm_valid hz).1⟩
  have e : UvNormal.cdf ⟨a, pinf⟩ x = Probability.newUnchecked ((x - a) / pinf).norm := by
    cases x
    · exact hx.elim
    · exact hx.elim
    · exact hx.elim
    · rfl
    · rfl
  rw [e]
  exact hv _ (fin_div_pinf hd).ne_nan

end

/-! ### non-vacuity -/
section
attribute [local instance] binary64 binary64_lawful B64.libm B64.specialFns B64.nanFns

example : ∃ d, Cauchy.new nan (fin 2) = .ok d ∧ ¬ (d.cdf (fin 3)).isValid := by
  obtain ⟨d, h, k⟩ := (C223_arithmetic_violated (s := fin 2) (fin_lt_fin.2 (by norm_num))).2.1
  exact ⟨d, h, k _⟩
example : ∃ d, UvNormal.new nan (fin 2) = .ok d ∧ ¬ (d.cdf (fin 3)).isValid := by
  obtain ⟨d, h, k⟩ := (C223_special_violated (s := fin 2) (c := fin 1) (fin_lt_fin.2 (by norm_num)) (fin_lt_fin.2 (by norm_num))).2.2.1
  exact ⟨d, h, k _ (fun h => h)⟩
example : ∃ d, Pareto.new pinf (fin 2) = .ok d ∧ ¬ (d.cdf (fin 3)).isValid := by
  obtain ⟨d, h, k⟩ := (C224_everywhere_violated (b := fin 2) (fin_lt_fin.2 (by norm_num))).2
  exact ⟨d, h, k _⟩
example : ¬ (Cauchy.cdf ⟨fin 1, fin 2⟩ nan).isValid := C222_arithmetic_violated.2.1 _
example : ¬ (UvNormal.cdf ⟨fin 1, fin 2⟩ nan).isValid := C222_special_violated.1 _
end
end Rstat
