import Verif.Props.Links2
import Verif.Props.Dist.LogNormal
import Verif.Props.Dist.BetaPrime
import Verif.Props.Dist.FDist
import Verif.Props.Dist.Gumbel
import Verif.Props.Dist.FoldedNormal
import Verif.Props.Dist.Levy

/-! Property C241: families related by a change of variable have related distribution functions. -/
set_option linter.unusedSectionVars false
namespace Rstat
open F64 Consts Spec MeasureTheory ProbabilityTheory Set

section
variable [FP] [FP.Exact]

/-- C241: if `X` is normal then `exp X` is log-normal: `LogNormal(μ, v).cdf(x) = Normal(μ, v).cdf(ln x)`. -/
theorem C241_lognormal_normal {a b : F64} {μ v : ℝ} {d : LogNormal} {n : UvNormal} (h : LogNormal.new a b = .ok d) (hn : UvNormal.new a b = .ok n)
    (ha : a.Is μ) (hb : b.Is v) {x y : F64} {t : ℝ} (ht : 0 < t) (hx : x.Is t) (hy : y.Is (Real.log t)) :
    SameVal (d.cdf x).val (n.cdf y).val := by
  obtain ⟨hv, -, -, c, -⟩ := C99_lognormal_partial h ha hb
  obtain ⟨-, rfl⟩ := UvNormal.new_ok.1 hn
  have e := c x t hx ht.le
  rw [logNormalCDF, if_neg (not_le.2 ht)] at e
  exact ⟨_, e, normal_cdf_is ha hb hv hy⟩

/-- C241: if `X` is Beta then `X/(1-X)` is Beta prime: `BetaPrime(α, β).cdf(x) = Beta(α, β).cdf(x/(1+x))`. -/
theorem C241_betaprime_beta {a b : F64} {α β : ℝ} {d : BetaPrime} {e : BetaDist} (h : BetaPrime.new a b = .ok d) (he : BetaDist.new a b = .ok e)
    (ha : a.Is α) (hb : b.Is β) {x y : F64} {t : ℝ} (ht : 0 ≤ t) (hx : x.Is t) (hy : y.Is (t / (1 + t))) :
    SameVal (d.cdf x).val (e.cdf y).val := by
  obtain ⟨hα, hβ, -, c, -⟩ := C148_beta_prime h ha hb
  obtain ⟨-, -, -, c', -⟩ := C98_beta he ha hb
  have hI : t / (1 + t) ∈ Icc (0:ℝ) 1 := ⟨by positivity, by rw [div_le_one (by positivity)]; linarith⟩
  refine ⟨_, c x t ht hx, ?_⟩
  have := c' y _ hI hy
  have hlt : t / (1 + t) < 1 := by rw [div_lt_one (by positivity)]; linarith
  rw [betaCDF, if_neg (not_lt.2 hI.1), if_neg (not_le.2 hlt)] at this
  rw [betaPrimeCDF]
  rcases ht.lt_or_eq with h0 | rfl
  · rw [if_neg (not_le.2 h0)]; exact this
  · rw [if_pos le_rfl]; simpa [betaI] using this

/-- C241: `F(m, n).cdf(x) = Beta(m/2, n/2).cdf(m x/(m x + n))`. -/
theorem C241_f_beta {m n : ℕ} {a b : F64} {d : FDist} {e : BetaDist} (h : FDist.new m n = .ok d) (he : BetaDist.new a b = .ok e)
    (ha : a.Is (m / 2)) (hb : b.Is (n / 2)) {x y : F64} {t : ℝ} (ht : 0 ≤ t) (hx : x.Is t) (hy : y.Is (m * t / (m * t + n))) :
    SameVal (d.cdf x).val (e.cdf y).val := by
  obtain ⟨hm, hn, -, c, -⟩ := C151_f_dist h
  obtain ⟨-, -, -, c', -⟩ := C98_beta he ha hb
  have hm' : (0:ℝ) < m := Nat.cast_pos.2 hm
  have hn' : (0:ℝ) < n := Nat.cast_pos.2 hn
  have hd : 0 < m * t + n := by positivity
  have hI : m * t / (m * t + n) ∈ Icc (0:ℝ) 1 := ⟨by positivity, by rw [div_le_one hd]; linarith⟩
  have hlt : m * t / (m * t + n) < 1 := by rw [div_lt_one hd]; linarith
  refine ⟨_, c x t ht hx, ?_⟩
  have := c' y _ hI hy
  rw [betaCDF, if_neg (not_lt.2 hI.1), if_neg (not_le.2 hlt)] at this
  rw [fCDF]
  rcases ht.lt_or_eq with h0 | rfl
  · rw [if_neg (not_le.2 h0)]; exact this
  · rw [if_pos le_rfl]; simpa [betaI] using this

/-- C241: if `X` is Weibull of scale 1 then `1/X` is Fréchet: `Frechet(α).cdf(x) + Weibull(1, α).cdf(1/x) = 1`. -/
theorem C241_frechet_weibull {a o : F64} {α : ℝ} {d : Frechet} {w : Weibull} (h : Frechet.new a = .ok d) (hw : Weibull.new o a = .ok w)
    (ha : a.Is α) (ho : o.Is 1) {x y : F64} {t : ℝ} (ht : 0 < t) (hx : x.Is t) (hy : y.Is (1 / t)) :
    ∃ p q : ℝ, (d.cdf x).val.Is p ∧ (w.cdf y).val.Is q ∧ p + q = 1 := by
  obtain ⟨hα, c, -⟩ := C68_frechet h ha
  obtain ⟨-, -, c', -⟩ := C70_weibull hw ho ha
  refine ⟨_, _, c x t ht hx, c' y _ (mem_univ _) hy, ?_⟩
  rw [frechetCDF, weibullCDF, if_neg (not_le.2 ht), if_neg (not_le.2 (by positivity)), div_one, one_div, Real.inv_rpow ht.le, Real.rpow_neg ht.le]
  ring

/-- C241: if `X` is Gumbel with location 0 and scale `1/α` then `exp X` is Fréchet: `Frechet(α).cdf(x) = Gumbel(0, 1/α).cdf(ln x)`. -/
theorem C241_frechet_gumbel {a z s : F64} {α : ℝ} {d : Frechet} {g : Gumbel} (h : Frechet.new a = .ok d) (hg : Gumbel.new z s = .ok g)
    (ha : a.Is α) (hz : z.Is 0) (hs : s.Is (1 / α)) {x y : F64} {t : ℝ} (ht : 0 < t) (hx : x.Is t) (hy : y.Is (Real.log t)) :
    SameVal (d.cdf x).val (g.cdf y).val := by
  obtain ⟨hα, c, -⟩ := C68_frechet h ha
  obtain ⟨-, c', -⟩ := C67_gumbel hg hz hs
  refine ⟨_, c x t ht hx, ?_⟩
  have := c' y _ (mem_univ _) hy
  rw [gumbelCDF] at this
  rw [frechetCDF, if_neg (not_le.2 ht), Real.rpow_def_of_pos ht]
  convert this using 5
  field_simp; ring

/-- C241: if `X` is Weibull then `ln X` is a reflected Gumbel: `Weibull(λ, k).cdf(x) + Gumbel(-ln λ, 1/k).cdf(-ln x) = 1`. -/
theorem C241_weibull_gumbel {a b z s : F64} {l k : ℝ} {w : Weibull} {g : Gumbel} (h : Weibull.new a b = .ok w) (hg : Gumbel.new z s = .ok g)
    (ha : a.Is l) (hb : b.Is k) (hz : z.Is (-Real.log l)) (hs : s.Is (1 / k)) {x y : F64} {t : ℝ} (ht : 0 < t) (hx : x.Is t) (hy : y.Is (-Real.log t)) :
    ∃ p q : ℝ, (w.cdf x).val.Is p ∧ (g.cdf y).val.Is q ∧ p + q = 1 := by
  obtain ⟨hl, hk, c, -⟩ := C70_weibull h ha hb
  obtain ⟨-, c', -⟩ := C67_gumbel hg hz hs
  refine ⟨_, _, c x t (mem_univ _) hx, c' y _ (mem_univ _) hy, ?_⟩
  rw [weibullCDF, if_neg (not_le.2 ht), gumbelCDF, Real.rpow_def_of_pos (by positivity), Real.log_div ht.ne' hl.ne']
  rw [show -(-Real.log t - -Real.log l) / (1 / k) = (Real.log t - Real.log l) * k by field_simp; ring]
  ring

/-- C241: if `X` is exponential of rate `α` then `m exp X` is Pareto: `Pareto(m, α).cdf(x) = Exponential(α).cdf(ln(x/m))`. -/
theorem C241_pareto_exponential {a b : F64} {m α : ℝ} {d : Pareto} {e : Exponential} (h : Pareto.new a b = .ok d) (he : Exponential.new b = .ok e)
    (ha : a.Is m) (hb : b.Is α) (hm : 0 < m) {x y : F64} {t : ℝ} (ht : 0 < t) (hx : x.Is t) (hy : y.Is (Real.log (t / m))) :
    SameVal (d.cdf x).val (e.cdf y).val := by
  obtain ⟨-, rfl⟩ := Pareto.new_ok.1 h
  obtain ⟨-, rfl⟩ := Exponential.new_ok.1 he
  refine ⟨_, pareto_cdf_is hm ha hb ht hx, ?_⟩
  have := exp_cdf_is (d := ⟨b⟩) hb hy
  rw [Real.rpow_def_of_pos (by positivity), ← inv_div t m, Real.log_inv]
  convert this using 3
  ring

/-- C241: if `X` is normal then `|X|` is folded normal: `FoldedNormal(μ, σ).cdf(x) = Normal(μ, σ²).cdf(x) - Normal(μ, σ²).cdf(-x)`. -/
theorem C241_folded_normal {a b c : F64} {μ s : ℝ} {d : FoldedNormal} {n : UvNormal} (h : FoldedNormal.new a b = .ok d) (hn : UvNormal.new a c = .ok n)
    (ha : a.Is μ) (hb : b.Is s) (hc : c.Is (s ^ 2)) {x y : F64} {t : ℝ} (hx : x.Is t) (hy : y.Is (-t)) :
    ∃ p q r : ℝ, (d.cdf x).val.Is p ∧ (n.cdf x).val.Is q ∧ (n.cdf y).val.Is r ∧ p = q - r := by
  obtain ⟨h0, rfl⟩ := FoldedNormal.new_ok.1 h
  obtain ⟨h1, rfl⟩ := UvNormal.new_ok.1 hn
  have s0 : 0 < s := pos_of_lt h0 hb
  have hv : 0 < s ^ 2 := by positivity
  have e1 := normal_cdf_is (d := ⟨a, c⟩) ha hc hv hx
  have e2 := normal_cdf_is (d := ⟨a, c⟩) ha hc hv hy
  rw [Real.sqrt_sq s0.le] at e1 e2
  exact ⟨_, _, _, FoldedNormal.cdf_is ha hb s0 hx, e1, e2, rfl⟩

/-- C241: `Levy(0, c)` is `InvGamma(1/2, c/2)`: their densities agree on (0, ∞) and so do their entropies. -/
theorem C241_levy_inverse_gamma_partial {z c a b : F64} {s : ℝ} {d : Levy} {g : InvGamma} (h : Levy.new z c = .ok d) (hg : InvGamma.new a b = .ok g)
    (hz : z.Is 0) (hc : c.Is s) (ha : a.Is (1 / 2)) (hb : b.Is (s / 2)) :
    SameOn (Ioi 0) d.pdf g.pdf ∧ SameVal d.shannonEntropy g.shannonEntropy := by
  obtain ⟨hs, p, -, -, -, -, -, -, e⟩ := C163_levy h hz hc
  obtain ⟨-, -, p', -, -, -, -, -, -, -, -, -, -, -, e'⟩ := C140_inverse_gamma hg ha hb
  have pe : ∀ x, levyPDF 0 s x = invGammaPDF (1 / 2) (s / 2) x := fun x => by
    unfold levyPDF invGammaPDF
    split_ifs with hx
    · rfl
    · have hx := not_le.1 hx
      rw [sub_zero, Real.Gamma_one_half_eq, ← Real.sqrt_eq_rpow, show s / (2 * Real.pi) = s / 2 / Real.pi by field_simp,
        Real.sqrt_div (by positivity), show (-(1 / 2) - 1 : ℝ) = -(3 / 2) by norm_num, Real.rpow_neg hx.le,
        show -s / (2 * x) = -(s / 2) / x by field_simp]
      ring
  exact ⟨SameOn.of p p' subset_rfl subset_rfl fun t _ => pe t, same_entropy (Filter.Eventually.of_forall pe) e e'⟩

/-- C241: if `X` is Gamma then `1/X` is inverse-Gamma, so `InvGamma(α, β).cdf(x) + Gamma(α, β).cdf(1/x)` should be 1; the two methods return
the same number instead, at every point. -/
theorem C241_inverse_gamma_gamma_violated {a b : F64} {α β : ℝ} {d : InvGamma} {g : Gamma} (h : InvGamma.new a b = .ok d) (hg : Gamma.new a b = .ok g)
    (ha : a.Is α) (hb : b.Is β) {x y : F64} {t : ℝ} (ht : 0 < t) (hx : x.Is t) (hy : y.Is (1 / t)) :
    SameVal (d.cdf x).val (g.cdf y).val ∧ invGammaCDF α β t + gammaCDF α β (1 / t) = 1 ∧
    ∀ p q : ℝ, (d.cdf x).val.Is p → (g.cdf y).val.Is q → (p + q = 1 ↔ gammaCDF α β (1 / t) = Real.Gamma α / 2) := by
  obtain ⟨h1, h2, rfl⟩ := InvGamma.new_ok.1 h
  obtain ⟨-, -, rfl⟩ := Gamma.new_ok.1 hg
  have hα := pos_of_lt h1 ha
  have hβ := pos_of_lt h2 hb
  have e : invGammaCDF α β t + gammaCDF α β (1 / t) = 1 := by
    rw [gammaCDF_pos_eq (by positivity), invGammaCDF, if_neg (not_le.2 ht), show β * (1 / t) = β / t by ring]; ring
  have e1 := InvGamma.cdf_is ha hb hα hβ ht hx
  have e2 := Gamma.cdf_is ha hb hα hβ (by positivity) hy
  have e3 : 1 - invGammaCDF α β t = gammaCDF α β (1 / t) := by linarith
  rw [e3] at e1
  refine ⟨⟨_, e1, e2⟩, e, fun p q hp hq => ?_⟩
  rw [hp.eq e1, hq.eq e2]
  have hG := Real.Gamma_pos_of_pos hα
  constructor
  · intro h; field_simp at h; linarith
  · intro h; rw [h]; field_simp; norm_num
end

/-! ### concrete cases -/
section
attribute [local instance] exactFP exactFP_exact
example : SameVal (LogNormal.cdf ⟨⟨fin 1, fin 2⟩⟩ (fin (Real.exp 3))).val (UvNormal.cdf ⟨fin 1, fin 2⟩ (fin 3)).val :=
  C241_lognormal_normal (LogNormal.new_ok.2 ⟨fin_lt_fin.2 (by norm_num), rfl⟩) (UvNormal.new_ok.2 ⟨fin_lt_fin.2 (by norm_num), rfl⟩) (Is.fin _) (Is.fin _)
    (Real.exp_pos 3) (Is.fin _) (by rw [Real.log_exp]; exact Is.fin _)
example : SameVal (BetaPrime.cdf ⟨fin 2, fin 3⟩ (fin 4)).val (BetaDist.cdf ⟨fin 2, fin 3⟩ (fin (4 / 5))).val :=
  C241_betaprime_beta (BetaPrime.new_ok.2 ⟨fin_lt_fin.2 (by norm_num), fin_lt_fin.2 (by norm_num), rfl⟩)
    (BetaDist.new_ok.2 ⟨fin_lt_fin.2 (by norm_num), fin_lt_fin.2 (by norm_num), rfl⟩) (Is.fin _) (Is.fin _) (t := 4) (by norm_num) (Is.fin _)
    (by convert Is.fin _ using 1; norm_num)
example : SameVal (FDist.cdf ⟨4, 10⟩ (fin 5)).val (BetaDist.cdf ⟨fin 2, fin 5⟩ (fin (2 / 3))).val :=
  C241_f_beta f_ex (BetaDist.new_ok.2 ⟨fin_lt_fin.2 (by norm_num), fin_lt_fin.2 (by norm_num), rfl⟩)
    (by convert Is.fin _ using 1; norm_num) (by convert Is.fin _ using 1; norm_num) (t := 5) (by norm_num) (Is.fin _)
    (by convert Is.fin _ using 1; norm_num)
example : ∃ p q : ℝ, (Frechet.cdf ⟨fin 3⟩ (fin 2)).val.Is p ∧ (Weibull.cdf ⟨fin 1, fin 3⟩ (fin (1 / 2))).val.Is q ∧ p + q = 1 :=
  C241_frechet_weibull (Frechet.new_ok.2 ⟨fin_lt_fin.2 (by norm_num), rfl⟩)
    (Weibull.new_ok.2 ⟨fin_lt_fin.2 (by norm_num), fin_lt_fin.2 (by norm_num), rfl⟩) (Is.fin _) (Is.fin _) (by norm_num) (Is.fin _) (Is.fin _)
example : SameVal (Frechet.cdf ⟨fin 2⟩ (fin (Real.exp 3))).val (Gumbel.cdf ⟨fin 0, fin (1 / 2)⟩ (fin 3)).val :=
  C241_frechet_gumbel (Frechet.new_ok.2 ⟨fin_lt_fin.2 (by norm_num), rfl⟩)
    (Gumbel.new_ok.2 ⟨fin_lt_fin.2 (by norm_num), rfl⟩) (Is.fin _) (Is.fin _) (Is.fin _) (Real.exp_pos 3) (Is.fin _) (by rw [Real.log_exp]; exact Is.fin _)
example : ∃ p q : ℝ, (Weibull.cdf ⟨fin 1, fin 2⟩ (fin (Real.exp 3))).val.Is p ∧ (Gumbel.cdf ⟨fin 0, fin (1 / 2)⟩ (fin (-3))).val.Is q ∧ p + q = 1 :=
  C241_weibull_gumbel (Weibull.new_ok.2 ⟨fin_lt_fin.2 (by norm_num), fin_lt_fin.2 (by norm_num), rfl⟩)
    (Gumbel.new_ok.2 ⟨fin_lt_fin.2 (by norm_num), rfl⟩) (Is.fin _) (Is.fin _) (by rw [Real.log_one, neg_zero]; exact Is.fin _) (Is.fin _)
    (Real.exp_pos 3) (Is.fin _) (by rw [Real.log_exp]; exact Is.fin _)
example : SameVal (Pareto.cdf ⟨fin 2, fin 3⟩ (fin (2 * Real.exp 3))).val (Exponential.cdf ⟨fin 3⟩ (fin 3)).val :=
  C241_pareto_exponential (Pareto.new_ok.2 ⟨fin_lt_fin.2 (by norm_num), rfl⟩) (Exponential.new_ok.2 ⟨fin_lt_fin.2 (by norm_num), rfl⟩)
    (Is.fin _) (Is.fin _) (by norm_num) (by positivity) (Is.fin _) (by rw [mul_div_cancel_left₀ _ (by norm_num), Real.log_exp]; exact Is.fin _)
example : ∃ p q r : ℝ, (FoldedNormal.cdf ⟨fin 1, fin 2⟩ (fin 3)).val.Is p ∧ (UvNormal.cdf ⟨fin 1, fin 4⟩ (fin 3)).val.Is q ∧
    (UvNormal.cdf ⟨fin 1, fin 4⟩ (fin (-3))).val.Is r ∧ p = q - r :=
  C241_folded_normal (FoldedNormal.new_ok.2 ⟨fin_lt_fin.2 (by norm_num), rfl⟩) (UvNormal.new_ok.2 ⟨fin_lt_fin.2 (by norm_num), rfl⟩)
    (Is.fin _) (Is.fin _) (by convert Is.fin _ using 1; norm_num) (Is.fin _) (Is.fin _)
example : SameVal (Levy.pdf ⟨fin 0, fin 2⟩ (fin 3)) (InvGamma.pdf ⟨fin (1 / 2), fin 1⟩ (fin 3)) :=
  (C241_levy_inverse_gamma_partial (s := 2) (Levy.new_ok.2 ⟨fin_lt_fin.2 (by norm_num), rfl⟩)
    (InvGamma.new_ok.2 ⟨fin_lt_fin.2 (by norm_num), fin_lt_fin.2 (by norm_num), rfl⟩) (Is.fin _) (Is.fin _) (Is.fin _)
    (by convert Is.fin _ using 1; norm_num)).1 _ 3 (by norm_num) (Is.fin _)
example : SameVal (InvGamma.cdf ⟨fin 2, fin 1⟩ (fin 4)).val (Gamma.cdf ⟨fin 2, fin 1⟩ (fin (1 / 4))).val :=
  (C241_inverse_gamma_gamma_violated (InvGamma.new_ok.2 ⟨fin_lt_fin.2 (by norm_num), fin_lt_fin.2 (by norm_num), rfl⟩)
    (Gamma.new_ok.2 ⟨fin_lt_fin.2 (by norm_num), fin_lt_fin.2 (by norm_num), rfl⟩) (Is.fin _) (Is.fin _) (by norm_num) (Is.fin _) (Is.fin _)).1
end
end Rstat
