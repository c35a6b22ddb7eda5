import Verif.Props.Links5
import Verif.Props.Multinomial
import Verif.Props.Mixture
import Verif.Props.Dist.Categorical
import Verif.Props.Dist.Uniform
import Verif.Props.Dist.Bernoulli
import Verif.Props.Normal
import Verif.Model.Dist.Arcsine
import Verif.Model.Dist.Binomial
import Verif.Model.Display
import Verif.Lemmas.Consts
import Verif.Float.ExactInst

/-! Validation of the model against the unit tests of /repo: each `example` restates one `#[test]` of the crate about the *model*, so that a
mistranscribed formula would fail here as it would fail `cargo test`. These are tests of the model on literals, not properties: no claim of
MANIFEST.json rests on them. Equality of f64 in the tests is `Is` (the same number); tests with a tolerance are shown with their exact value. -/
namespace Rstat.Conformance
open F64 Classical Consts
variable [FP] [FP.Exact]

/-- src/params/constraints.rs:422-433 `test_non_negative` -/
example : (Cst.nonNegative (s := .f64)).sat (F64.fin (-3/2)) = false ∧ (Cst.nonNegative (s := .f64)).sat (F64.fin (-1/2)) = false ∧
    (Cst.nonNegative (s := .f64)).sat (F64.fin (1/2)) = true ∧ (Cst.nonNegative (s := .f64)).sat (F64.fin (3/2)) = true := by
  have h : ∀ r : ℝ, (Cst.nonNegative (s := .f64)).sat (F64.fin r) = decide (0 ≤ r) := fun r => by
    show decide (F64.le (F64.fin 0) (F64.fin r)) = _
    rw [decide_eq_decide]
    exact (Is.fin 0).le_iff (Is.fin r)
  refine ⟨?_, ?_, ?_, ?_⟩ <;> rw [h] <;> norm_num

/-- src/univariate/arcsine.rs:128-133 `test_mean`, :135-140 `test_variance`, :142-147 `test_skewness`, :149-154 `test_median` -/
example : (Arcsine.mean ⟨F64.fin 0, F64.fin 1⟩).Is 0.5 ∧ (Arcsine.mean ⟨F64.fin (-1), F64.fin 1⟩).Is (-0.5) ∧ (Arcsine.mean ⟨F64.fin (-1), F64.fin 2⟩).Is 0 ∧
    (Arcsine.variance ⟨F64.fin 0, F64.fin 1⟩).Is (1 / 8) ∧ (Arcsine.variance ⟨F64.fin (-1), F64.fin 1⟩).Is (1 / 8) ∧ (Arcsine.variance ⟨F64.fin (-1), F64.fin 2⟩).Is (1 / 2) ∧
    (Arcsine.skewness ⟨F64.fin 0, F64.fin 1⟩).Is 0 ∧ (Arcsine.skewness ⟨F64.fin (-1), F64.fin 1⟩).Is 0 ∧ (Arcsine.skewness ⟨F64.fin (-1), F64.fin 2⟩).Is 0 ∧
    (Arcsine.median ⟨F64.fin 0, F64.fin 1⟩).Is 0.5 ∧ (Arcsine.median ⟨F64.fin (-1), F64.fin 1⟩).Is (-0.5) ∧ (Arcsine.median ⟨F64.fin (-1), F64.fin 2⟩).Is 0 := by
  simp only [Arcsine.median, Arcsine.mean, Arcsine.variance, Arcsine.skewness, Arcsine.b]
  refine ⟨?_, ?_, ?_, ?_, ?_, ?_, Is.zero, Is.zero, Is.zero, ?_, ?_, ?_⟩ <;> refine F64.Is.congr (by fev) ?_ <;> norm_num

/-- src/univariate/arcsine.rs:156-161 `test_modes` -/
example : List.Forall₂ F64.Is (Arcsine.modes ⟨F64.fin 0, F64.fin 1⟩) [0, 1] ∧ List.Forall₂ F64.Is (Arcsine.modes ⟨F64.fin (-1), F64.fin 1⟩) [-1, 0] ∧
    List.Forall₂ F64.Is (Arcsine.modes ⟨F64.fin (-1), F64.fin 2⟩) [-1, 1] := by
  simp only [Arcsine.modes, Arcsine.b]
  refine ⟨.cons ?_ (.cons ?_ .nil), .cons ?_ (.cons ?_ .nil), .cons ?_ (.cons ?_ .nil)⟩ <;> refine F64.Is.congr (by fev) ?_ <;> norm_num

/-- src/univariate/uniform.rs:314-321 `test_mean` -/
example : (UniformF.mean (UniformF.fromParams 0 2)).Is 1 ∧ (UniformF.mean (UniformF.fromParams 0 1)).Is 0.5 ∧
    (UniformF.mean (UniformF.fromParams 1 1)).Is 1.5 := by
  simp only [UniformF.mean, UniformF.fromParams]
  refine ⟨?_, ?_, ?_⟩ <;> refine F64.Is.congr (by fev) ?_ <;> norm_num

/-- src/univariate/bernoulli.rs:199-206 `test_mean`, :208-215 `test_variance` -/
example : (Bernoulli.fromParams ⟨0⟩).mean.Is 0 ∧ (Bernoulli.fromParams ⟨F64.fin 0.5⟩).mean.Is 0.5 ∧ (Bernoulli.fromParams ⟨1⟩).mean.Is 1 ∧
    (Bernoulli.fromParams ⟨0⟩).variance.Is 0 ∧ (Bernoulli.fromParams ⟨F64.fin 0.5⟩).variance.Is 0.25 ∧ (Bernoulli.fromParams ⟨1⟩).variance.Is 0 := by
  simp only [Bernoulli.mean, Bernoulli.fromParams]
  refine ⟨?_, ?_, ?_, ?_, ?_, ?_⟩ <;> refine F64.Is.congr (by fev) ?_ <;> norm_num

/-- src/univariate/bernoulli.rs:217-226 `test_skewness` -/
example : (Bernoulli.fromParams ⟨0⟩).skewness = pinf ∧ (Bernoulli.fromParams ⟨F64.fin 0.25⟩).skewness.Is (0.5 / √0.1875) ∧
    (Bernoulli.fromParams ⟨F64.fin 0.5⟩).skewness.Is 0 ∧ (Bernoulli.fromParams ⟨F64.fin 0.75⟩).skewness.Is (-0.5 / √0.1875) ∧
    (Bernoulli.fromParams ⟨1⟩).skewness = ninf := by
  have hs : (F64.fin 0).sqrt = F64.fin 0 := by
    show (if (0 : ℝ) < 0 then nan else F64.round (Real.sqrt 0)) = _
    rw [if_neg (lt_irrefl _), Real.sqrt_zero]
    unfold F64.round; rw [F64.rnd_zero, if_neg (FP.Exact.no_huge 0)]; simp
  have hd : ∀ r : ℝ, r ≠ 0 → F64.fin r / F64.fin 0 = if r < 0 then ninf else pinf := fun r hr => by
    show F64.div _ _ = _
    simp [F64.div, F64.isInf, F64.isNeg, F64.toReal, hr, F64.sinf]
  have hm0 : F64.fin 0 * F64.fin 1 = F64.fin 0 := by
    show F64.mul _ _ = _
    simp [F64.mul, F64.isInf, F64.isNeg, F64.toReal, F64.szero]
  have hm1 : F64.fin 1 * F64.fin 0 = F64.fin 0 := by
    show F64.mul _ _ = _
    simp [F64.mul, F64.isInf, F64.isNeg, F64.toReal, F64.szero]
  have h10 : (1 : F64) - 0 = F64.fin 1 := (Is.congr (by fev) (by norm_num : (_ : ℝ) = 1)).eq_fin one_ne_zero
  have h11 : (1 : F64) - 1 = F64.fin 0 := by
    have e : (1 : F64) - 1 = F64.round (1 + -1) := by
      show F64.add (F64.fin 1) (F64.neg (F64.fin 1)) = _
      rw [F64.neg, if_neg one_ne_zero]; rfl
    rw [e, add_neg_cancel]
    unfold F64.round; rw [F64.rnd_zero, if_neg (FP.Exact.no_huge 0)]; simp
  refine ⟨?_, ?_, ?_, ?_, ?_⟩
  · simp only [Bernoulli.skewness, Bernoulli.fromParams]
    rw [h10, show (0 : F64) * F64.fin 1 = F64.fin 0 from hm0, hs,
      (Is.congr (by fev) (by norm_num) : ((1 : F64) - 2 * 0).Is 1).eq_fin one_ne_zero, hd 1 one_ne_zero, if_neg (by norm_num)]
  · simp only [Bernoulli.skewness, Bernoulli.fromParams]
    refine F64.Is.congr (by fev) ?_ <;> norm_num
  · simp only [Bernoulli.skewness, Bernoulli.fromParams]
    refine F64.Is.congr (by fev) ?_ <;> norm_num
  · simp only [Bernoulli.skewness, Bernoulli.fromParams]
    refine F64.Is.congr (by fev) ?_ <;> norm_num
  · simp only [Bernoulli.skewness, Bernoulli.fromParams]
    rw [h11, show (1 : F64) * F64.fin 0 = F64.fin 0 from hm1, hs,
      (Is.congr (by fev) (by norm_num) : ((1 : F64) - 2 * 1).Is (-1)).eq_fin (by norm_num), hd (-1) (by norm_num), if_pos (by norm_num)]

/-- src/univariate/bernoulli.rs:228-237 `test_median` -/
example : (Bernoulli.fromParams ⟨0⟩).median.Is 0 ∧ (Bernoulli.fromParams ⟨F64.fin 0.25⟩).median.Is 0 ∧
    (Bernoulli.fromParams ⟨F64.fin 0.5⟩).median.Is 0.5 ∧ (Bernoulli.fromParams ⟨F64.fin 0.75⟩).median.Is 1 ∧
    (Bernoulli.fromParams ⟨1⟩).median.Is 1 := by
  have h : ∀ (p : F64) (r : ℝ), p.Is r → ((Bernoulli.fromParams ⟨p⟩).median).Is (if |r - 1/2| < 1/10^7 then 1/2 else if r < 1/2 then 0 else 1) := by
    intro p r hp
    simp only [Bernoulli.median, Bernoulli.fromParams]
    have h1 : ((p - F64.fin (1 / 2)).abs).Is |r - 1/2| := by fev
    have h2 : (F64.lit (1 / 10 ^ 7)).Is (1/10^7) := by fev
    simp only [h1.lt_iff h2, hp.lt_iff (Is.fin (1/2))]
    split_ifs
    · exact Is.fin _
    · exact Is.zero
    · exact Is.one
  refine ⟨?_, ?_, ?_, ?_, ?_⟩
  · have := h _ _ Is.zero; norm_num [abs_of_nonneg, abs_of_neg] at this ⊢; exact this
  · have := h _ _ (Is.fin 0.25); norm_num [abs_of_nonneg, abs_of_neg] at this ⊢; exact this
  · have := h _ _ (Is.fin 0.5); norm_num [abs_of_nonneg, abs_of_neg] at this ⊢; exact this
  · have := h _ _ (Is.fin 0.75); norm_num [abs_of_nonneg, abs_of_neg] at this ⊢; exact this
  · have := h _ _ Is.one; norm_num [abs_of_nonneg, abs_of_neg] at this ⊢; exact this

/-- src/multivariate/multinomial.rs:176-188 `test_support`, :190-199 `test_cov`, :201-210 `test_corr` -/
example : (Multinomial.newUnchecked 2 ![F64.fin 0.5, F64.fin 0.5]).support = ![(0, 2), (0, 2)] ∧
    (∀ i j, ((Multinomial.newUnchecked 5 ![F64.fin 0.25, F64.fin 0.75]).covariance i j).Is (if i = j then 0.9375 else -0.9375)) ∧
    (∀ i j, ((Multinomial.newUnchecked 5 ![F64.fin 0.25, F64.fin 0.75]).correlation i j).Is (if i = j then 1 else -1)) := by
  refine ⟨?_, ?_, ?_⟩
  · funext i; fin_cases i <;> rfl
  · intro i j
    fin_cases i <;> fin_cases j <;> simp [Multinomial.covariance, Multinomial.newUnchecked] <;> refine F64.Is.congr (by fev) ?_ <;> norm_num
  · intro i j
    fin_cases i <;> fin_cases j <;> simp [Multinomial.correlation, Multinomial.newUnchecked] <;> refine F64.Is.congr (by fev) ?_ <;> norm_num

/-- src/normal/univariate.rs:240-246 `test_fit_mle` -/
example : ∃ d, UvNormal.fitMle [F64.fin 0, F64.fin 1, F64.fin 2, F64.fin 3, F64.fin 4] = .ok d ∧ (UvNormal.mean d).Is 2 ∧ (UvNormal.variance d).Is 2 := by
  obtain ⟨d, h, hm, hv, -⟩ := C43_mle_maximises (xs := [F64.fin 0, F64.fin 1, F64.fin 2, F64.fin 3, F64.fin 4]) (rs := [0, 1, 2, 3, 4])
    (.cons (Is.fin _) (.cons (Is.fin _) (.cons (Is.fin _) (.cons (Is.fin _) (.cons (Is.fin _) .nil))))) ⟨0, by simp, 1, by simp, by norm_num⟩
  refine ⟨d, h, hm.congr ?_, hv.congr ?_⟩ <;> norm_num [Spec.empMean, Spec.empVar]

/-- src/univariate/categorical.rs:114-127 `test_unimodal`, :129-137 `test_bimodal` -/
example : (Categorical.newUnchecked [F64.fin 0.5, F64.fin 0.25, F64.fin 0.25]).modes = .ok [0] ∧
    (Categorical.newUnchecked [F64.fin 0.25, F64.fin 0.5, F64.fin 0.25]).modes = .ok [1] ∧
    (Categorical.newUnchecked [F64.fin 0.25, F64.fin 0.25, F64.fin 0.5]).modes = .ok [2] ∧
    (Categorical.newUnchecked [F64.fin 0.4, F64.fin 0.4, F64.fin 0.1, F64.fin 0.1]).modes = .ok [0, 1] := by
  refine ⟨?_, ?_, ?_, ?_⟩ <;>
    norm_num [Categorical.modes, Categorical.newUnchecked, SimplexVector.newUnchecked, Categorical.modesStep, F64.partialCmp, List.zipIdx,
      (Is.fin _).lt_iff (Is.fin _), (Is.fin _).feq_iff (Is.fin _), exc_ok_bind]

/-- src/mixture.rs:224-242 `test_uniform_pair_mixture` -/
example (D : Comp UniformF Interval Unit F64 ℕ) (hm : D.mean = UniformF.mean) (hv : D.variance = UniformF.variance) (I : Interval) :
    let u := UniformF.fromParams (F64.fin 0) (F64.fin 2)
    let m := Mix ![1 / 2, 1 / 2] ![UniformF.fromParams (F64.fin 0) (F64.fin 1), UniformF.fromParams (F64.fin 1) (F64.fin 1)] I
    u.mean.Is 1 ∧ (m.mean D).Is 1 ∧ u.variance.Is (1 / 3) ∧ (m.variance D).Is (1 / 3) := by
  have m0 : ∀ i, (D.mean (![UniformF.fromParams (F64.fin 0) (F64.fin 1), UniformF.fromParams (F64.fin 1) (F64.fin 1)] i)).Is
      ((![1 / 2, 3 / 2] : Fin 2 → ℝ) i) := fun i => by
    rw [hm]
    fin_cases i <;> simp only [UniformF.mean, UniformF.fromParams] <;> refine F64.Is.congr (by fev) ?_ <;> norm_num
  have v0 : ∀ i, (D.variance (![UniformF.fromParams (F64.fin 0) (F64.fin 1), UniformF.fromParams (F64.fin 1) (F64.fin 1)] i)).Is
      ((![1 / 12, 1 / 12] : Fin 2 → ℝ) i) := fun i => by
    rw [hv]
    fin_cases i <;> simp only [UniformF.variance, UniformF.fromParams] <;> refine F64.Is.congr (by fev) ?_ <;> norm_num
  refine ⟨?_, (C35_mean D _ _ _ _ m0).congr ?_, ?_, (C35_variance D _ _ _ ?_ _ _ m0 v0).1.congr ?_⟩
  · simp only [UniformF.mean, UniformF.fromParams]
    refine F64.Is.congr (by fev) ?_ <;> norm_num
  · norm_num [Fin.sum_univ_two]
  · simp only [UniformF.variance, UniformF.fromParams]
    refine F64.Is.congr (by fev) ?_ <;> norm_num
  · norm_num [Fin.sum_univ_two]
  · norm_num [Fin.sum_univ_two]

/-- src/probability.rs:453-460 `test_sample_index_degenerate`, :462-478 `test_sample_index_degenerate_n`: whatever the generator's draw in
[0, 1) -/
example (pr : Profile) (u : F64) (r : ℝ) (hu : u.Is r) (h0 : 0 ≤ r) (h1 : r < 1) :
    (⟨[F64.fin 1]⟩ : SimplexVector).indexOf pr u = .ok 0 ∧
    (⟨[F64.fin 1, 0, 0, 0, 0]⟩ : SimplexVector).indexOf pr u = .ok 0 ∧
    (⟨[0, 0, F64.fin 1, 0, 0]⟩ : SimplexVector).indexOf pr u = .ok 2 ∧
    (⟨[0, 0, 0, 0, F64.fin 1]⟩ : SimplexVector).indexOf pr u = .ok 4 := by
  have z : ∀ a : F64, a.Is 0 → ¬ u < a := fun a ha => by rw [hu.lt_iff ha]; linarith
  have o : ∀ a : F64, a.Is 1 → u < a := fun a ha => by rw [hu.lt_iff ha]; exact h1
  have a0 : ∀ a b : F64, a.Is 0 → b.Is 0 → (a + b).Is 0 := fun a b ha hb => (ha.add hb).congr (by norm_num)
  have a1 : ∀ a b : F64, a.Is 0 → b.Is 1 → (a + b).Is 1 := fun a b ha hb => (ha.add hb).congr (by norm_num)
  have i0 := Is.zero
  have i1 := Is.fin 1
  have k1 := a0 _ _ i0 i0
  have k2 := a0 _ _ k1 i0
  have k3 := a0 _ _ k2 i0
  have k4 := a0 _ _ k3 i0
  refine ⟨?_, ?_, ?_, ?_⟩
  · simp [SimplexVector.indexOf, usub, SimplexVector.prefixes, SimplexVector.position, o _ (a1 _ _ i0 i1)]
  · simp [SimplexVector.indexOf, usub, SimplexVector.prefixes, SimplexVector.position, o _ (a1 _ _ i0 i1)]
  · simp [SimplexVector.indexOf, usub, SimplexVector.prefixes, SimplexVector.position, z _ k1, z _ k2, o _ (a1 _ _ k2 i1)]
  · simp [SimplexVector.indexOf, usub, SimplexVector.prefixes, SimplexVector.position, z _ k1, z _ k2, z _ k3, z _ k4, o _ (a1 _ _ k4 i1)]

/-- src/normal/multivariate.rs:707-715 `test_isotropic_pdf`: the value 0.0101053… is (2π)^(-5/2) -/
example : ∃ d, IsoNormal.standard 5 = .ok d ∧ (d.pdf fun _ => F64.fin 0).Is ((2 * Real.pi) ^ (-(5 : ℝ) / 2)) := by
  have h : IsoNormal.new (fun _ : Fin 5 => (0 : F64)) 1 = .ok (IsoNormal.newUnchecked (fun _ => 0) 1) :=
    IsoNormal.new_ok.2 ⟨lt_of_pos one_pos Is.one, rfl⟩
  refine ⟨IsoNormal.newUnchecked (fun _ => 0) 1, ?_, (mvPdf_is (iso_mahalanobis_is h (fun _ => Is.zero) Is.one fun _ => Is.fin 0) (iso_facts h Is.one).2.2.2.2.1 (by norm_num)).congr ?_⟩
  · unfold IsoNormal.standard IsoNormal.homogeneous; simpa [Cst.check, Cst.defaultCheck, Cst.sat, Except.mapError, Sc.lt, Sc.zero, exc_ok_bind] using h
  have hp : (0 : ℝ) < 2 * Real.pi := by positivity
  rw [show -(5 : ℝ) / 2 = -(5 / 2) by norm_num, Real.rpow_neg hp.le, Real.sqrt_eq_rpow, one_pow, mul_one, ← Real.rpow_natCast, ← Real.rpow_mul hp.le]
  norm_num

end Rstat.Conformance
