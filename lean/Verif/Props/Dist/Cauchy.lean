import Verif.Model.Dist.Cauchy
import Verif.Lemmas.Dist.CauchyConv
import Verif.Lemmas.DistBase

/-! Properties C59–C60: the Cauchy law. -/
set_option linter.unusedSectionVars false
namespace Rstat
open F64 Consts Spec MeasureTheory ProbabilityTheory Set

theorem Cauchy.new_ok [FP] {a b : F64} {d : Cauchy} : Cauchy.new a b = .ok d ↔ 0 < b ∧ d = ⟨a, b⟩ := by
  simp only [Cauchy.new, exc_bind_ok, Loc.new_ok, Scale.new_ok]
  constructor
  · rintro ⟨_, rfl, _, ⟨h0, rfl⟩, h⟩; exact ⟨h0, by cases h; rfl⟩
  · rintro ⟨h0, rfl⟩; exact ⟨_, rfl, _, ⟨h0, rfl⟩, rfl⟩

section
variable [FP] [FP.Exact] {a b : F64} {x₀ γ : ℝ} {d : Cauchy}

theorem cauchy_pdf_is (hγ : 0 < γ) (ha : d.x0.Is x₀) (hb : d.gamma.Is γ) {x : F64} {t : ℝ} (hx : x.Is t) :
    (d.pdf x).Is (cauchyDensity x₀ γ t) := by
  unfold Cauchy.pdf Cauchy.z cauchyDensity
  dsimp only
  have h1 : 1 + ((t - x₀) / γ) * ((t - x₀) / γ) ≠ 0 := by nlinarith [mul_self_nonneg ((t - x₀) / γ)]
  refine Is.congr (r := 1 / Real.pi / γ / (1 + ((t - x₀) / γ) * ((t - x₀) / γ))) (by fev) ?_
  rw [← sq, one_div, div_div, div_eq_mul_inv, ← mul_inv, one_div, mul_assoc]

/-- C59: the Cauchy law. -/
theorem C59_cauchy (h : Cauchy.new a b = .ok d) (ha : a.Is x₀) (hb : b.Is γ) :
    0 < γ ∧
    Computes (fun x => (d.cdf x).val) (cauchyCDF x₀ γ) univ ∧
    Computes d.pdf (cauchyDensity x₀ γ) univ ∧
    IsCDF (cauchyCDF x₀ γ) ∧ IsDensityOf (cauchyDensity x₀ γ) (cauchyCDF x₀ γ) ∧
    Law (cauchyDensity x₀ γ) = cauchyMeasure x₀ γ.toNNReal ∧
    (∀ (q : F64) (p : ℝ), 0 < p → p < 1 → q.Is p →
      ∃ x, (d.quantile ⟨q⟩).Is x ∧ cauchyCDF x₀ γ x = p ∧ IsQuantile (cauchyCDF x₀ γ) p x) ∧
    (∃ x, d.median.Is x ∧ cauchyCDF x₀ γ x = 1 / 2) ∧
    (∃ m x, d.modes = [m] ∧ m.Is x ∧ IsMode (cauchyDensity x₀ γ) x) ∧
    (∃ e, d.shannonEntropy.Is e ∧ HasEntropy (cauchyDensity x₀ γ) e) ∧
    (∃ w, d.fwhm.Is w ∧ 0 < w ∧ cauchyDensity x₀ γ (x₀ + w / 2) = cauchyDensity x₀ γ x₀ / 2 ∧
      cauchyDensity x₀ γ (x₀ - w / 2) = cauchyDensity x₀ γ x₀ / 2) := by
  obtain ⟨h0, rfl⟩ := Cauchy.new_ok.1 h
  have hγ : 0 < γ := pos_of_lt h0 hb
  have hpi := Real.pi_pos
  obtain ⟨hF, hD⟩ := cauchy_density x₀ hγ
  have hmono : StrictMono (cauchyCDF x₀ γ) := by
    intro x y hxy
    unfold cauchyCDF
    have : Real.arctan ((x - x₀) / γ) < Real.arctan ((y - x₀) / γ) := Real.arctan_strictMono (by gcongr)
    gcongr
  refine ⟨hγ, fun x t _ hx => ?_, fun x t _ hx => cauchy_pdf_is hγ ha hb hx, hF, hD, law_cauchy x₀ hγ, ?_,
    ⟨x₀, ha, by simp [cauchyCDF]⟩, ⟨a, x₀, rfl, ha, fun x => ?_⟩, ⟨_, ?_, cauchy_entropy x₀ hγ⟩, ⟨2 * γ, ?_, by positivity, ?_, ?_⟩⟩
  · unfold Cauchy.cdf Cauchy.z Probability.newUnchecked
    refine Is.congr (r := 1 / Real.pi * Real.arctan ((t - x₀) / γ) + 1 / 2) (by fev) ?_
    unfold cauchyCDF; ring
  · intro q p hp hp1 hq
    have hv : cauchyCDF x₀ γ (x₀ + γ * Real.tan (Real.pi * (p - 1 / 2))) = p := by
      unfold cauchyCDF
      rw [show (x₀ + γ * Real.tan (Real.pi * (p - 1 / 2)) - x₀) / γ = Real.tan (Real.pi * (p - 1 / 2)) by field_simp; ring,
        Real.arctan_tan (by nlinarith) (by nlinarith)]
      field_simp; ring
    refine ⟨_, ?_, hv, isQuantile_of hv fun y hy => ?_⟩
    · unfold Cauchy.quantile; fev
    · rw [← hv]; exact hmono hy
  · unfold cauchyDensity
    rw [sub_self, zero_div]
    apply one_div_le_one_div_of_le (by positivity)
    exact mul_le_mul_of_nonneg_left (by nlinarith [sq_nonneg ((x - x₀) / γ)]) (by positivity)
  · unfold Cauchy.shannonEntropy; fev
  · unfold Cauchy.fwhm; fev
  · unfold cauchyDensity
    rw [show (x₀ + 2 * γ / 2 - x₀) / γ = 1 by field_simp; ring, sub_self, zero_div]
    field_simp; norm_num
  · unfold cauchyDensity
    rw [show (x₀ - 2 * γ / 2 - x₀) / γ = -1 by field_simp; ring, sub_self, zero_div]
    field_simp; norm_num

/-- C60: `convolve` of two constructed Cauchy laws always succeeds, and the result is the Cauchy law of the sum of two
independent variables (measure convolution); it is again accepted by the constructor. -/
theorem C60_cauchy_convolve {a' b' : F64} {x₁ δ : ℝ} {e : Cauchy} (h : Cauchy.new a b = .ok d) (ha : a.Is x₀) (hb : b.Is γ)
    (h' : Cauchy.new a' b' = .ok e) (ha' : a'.Is x₁) (hb' : b'.Is δ) :
    ∃ c, d.convolve e = .ok c ∧ c.x0.Is (x₀ + x₁) ∧ c.gamma.Is (γ + δ) ∧ Cauchy.new c.x0 c.gamma = .ok c ∧
      Computes c.pdf (cauchyDensity (x₀ + x₁) (γ + δ)) univ ∧
      Measure.conv (Law (cauchyDensity x₀ γ)) (Law (cauchyDensity x₁ δ)) = Law (cauchyDensity (x₀ + x₁) (γ + δ)) := by
  obtain ⟨h0, rfl⟩ := Cauchy.new_ok.1 h
  obtain ⟨h0', rfl⟩ := Cauchy.new_ok.1 h'
  have hγ : 0 < γ := pos_of_lt h0 hb
  have hδ : 0 < δ := pos_of_lt h0' hb'
  have hc : (b + b').Is (γ + δ) := hb.add hb'
  have hn : Cauchy.new (a + a') (b + b') = .ok ⟨a + a', b + b'⟩ :=
    Cauchy.new_ok.2 ⟨lt_of_pos (add_pos hγ hδ) hc, rfl⟩
  exact ⟨_, rfl, ha.add ha', hc, hn, (C59_cauchy hn (ha.add ha') hc).2.2.1, cauchy_conv x₀ x₁ hγ hδ⟩

/-- C60: commutative and associative (exact reading): the parameters of the results are equal reals. -/
theorem C60_cauchy_convolve_comm_assoc (d e f : Cauchy) {x y z p q r : ℝ}
    (hd : d.x0.Is x) (he : e.x0.Is y) (hf : f.x0.Is z) (gd : d.gamma.Is p) (ge : e.gamma.Is q) (gf : f.gamma.Is r) :
    (∃ a b u v, d.convolve e = .ok a ∧ e.convolve d = .ok b ∧ a.x0.Is u ∧ b.x0.Is u ∧ a.gamma.Is v ∧ b.gamma.Is v) ∧
    (∃ a b ab bc u v, d.convolve e = .ok ab ∧ ab.convolve f = .ok a ∧ e.convolve f = .ok bc ∧ d.convolve bc = .ok b ∧
      a.x0.Is u ∧ b.x0.Is u ∧ a.gamma.Is v ∧ b.gamma.Is v) :=
  ⟨⟨_, _, x + y, p + q, rfl, rfl, hd.add he, (he.add hd).congr (add_comm _ _), gd.add ge, (ge.add gd).congr (add_comm _ _)⟩,
   ⟨_, _, _, _, x + y + z, p + q + r, rfl, rfl, rfl, rfl, (hd.add he).add hf, (hd.add (he.add hf)).congr (add_assoc _ _ _).symm,
    (gd.add ge).add gf, (gd.add (ge.add gf)).congr (add_assoc _ _ _).symm⟩⟩

end

section
attribute [local instance] exactFP exactFP_exact
example : ∃ d, Cauchy.new (fin (-3)) (fin 2) = .ok d ∧ d.fwhm.Is 4 := by
  refine ⟨_, Cauchy.new_ok.2 ⟨fin_lt_fin.2 (by norm_num), rfl⟩, ?_⟩
  unfold Cauchy.fwhm
  refine Is.congr (r := 2 * 2) (by fev) (by norm_num)
example : ∃ d e c, Cauchy.new (fin (-3)) (fin 2) = .ok d ∧ Cauchy.new (fin 5) (fin 1) = .ok e ∧ d.convolve e = .ok c ∧
    c.x0.Is 2 ∧ c.gamma.Is 3 :=
  ⟨_, _, _, Cauchy.new_ok.2 ⟨fin_lt_fin.2 (by norm_num), rfl⟩, Cauchy.new_ok.2 ⟨fin_lt_fin.2 (by norm_num), rfl⟩, rfl,
    Is.congr (r := -3 + 5) (by fev) (by norm_num), Is.congr (r := 2 + 1) (by fev) (by norm_num)⟩
end
end Rstat
