import Verif.Props.Links
import Verif.Props.Dist.Beta
import Verif.Props.Dist.Kumaraswamy
import Verif.Props.Dist.Arcsine
import Verif.Props.Dist.Uniform
import Verif.Props.Dist.Pareto
import Verif.Props.Dist.GEV
import Verif.Props.Dist.Frechet
import Verif.Props.Dist.Cauchy
import Verif.Props.Dist.StudentT

/-! Properties C239-C240: families that name the same law on the unit interval, and with heavy tails, return the same numbers. -/
set_option linter.unusedSectionVars false
namespace Rstat
open F64 Consts Spec MeasureTheory ProbabilityTheory Set

theorem cdf_of_ae {f g F G : ℝ → ℝ} (e : f =ᵐ[volume] g) (h : IsDensityOf f F) (h' : IsDensityOf g G) : F = G := by
  ext x; rw [h.cdf, h'.cdf]
  exact integral_congr_ae (ae_restrict_of_ae e)

/-! ### the unit interval -/
section
variable [FP] [FP.Exact] {a b : F64} {α β : ℝ} {d : BetaDist}

theorem beta_one_right {α : ℝ} (h : 0 < α) : ProbabilityTheory.beta α 1 = 1 / α := by
  rw [ProbabilityTheory.beta, Real.Gamma_one, Real.Gamma_add_one h.ne', mul_one]
  field_simp [(Real.Gamma_pos_of_pos h).ne']
theorem beta_one_left {β : ℝ} (h : 0 < β) : ProbabilityTheory.beta 1 β = 1 / β := by
  rw [ProbabilityTheory.beta, Real.Gamma_one, add_comm, Real.Gamma_add_one h.ne', one_mul]
  field_simp [(Real.Gamma_pos_of_pos h).ne']
theorem beta_half_half : ProbabilityTheory.beta (1 / 2) (1 / 2) = Real.pi := by
  rw [ProbabilityTheory.beta, Real.Gamma_one_half_eq, show (1 / 2 : ℝ) + 1 / 2 = 1 by norm_num, Real.Gamma_one, div_one, Real.mul_self_sqrt Real.pi_pos.le]

/-- C239: `Beta(α, β)` and `Kumaraswamy(α, β)` coincide when a shape is 1: cdf on [0, 1], pdf on (0, 1), mean, variance, skewness, entropy,
and (the shapes being equal or at least 1e-7 apart) median. -/
theorem C239_beta_kumaraswamy_partial (h : BetaDist.new a b = .ok d) (ha : a.Is α) (hb : b.Is β) {k : Kumaraswamy} (hk : Kumaraswamy.new a b = .ok k)
    (h1 : α = 1 ∨ β = 1) :
    SameOn (Icc 0 1) (fun x => (d.cdf x).val) (fun x => (k.cdf x).val) ∧ SameOn (Ioo 0 1) d.pdf k.pdf ∧
    SameVal d.mean k.mean ∧ SameVal d.variance k.variance ∧ SameVal d.skewness k.skewness ∧ SameVal d.shannonEntropy k.shannonEntropy ∧
    (α = β ∨ 1 / 10 ^ 7 ≤ |α - β| → ∃ m, d.median = .ok m ∧ SameVal m k.median) := by
  obtain ⟨hα, hβ, dp, dc, -, dd, dmv, dsk, de⟩ := C98_beta h ha hb
  obtain ⟨-, -, kc, kp, -, kd, kmv, ksk, ⟨km, km1, km2⟩, -⟩ := C72_kumaraswamy hk ha hb
  have ke := C113_kumaraswamy_entropy_partial hk ha hb (h1.imp id fun h => ⟨1, by norm_num, by simpa using h⟩)
  have pe : ∀ x, betaPDFReal α β x = kumaraswamyPDF α β x := fun x => by
    unfold betaPDFReal kumaraswamyPDF
    by_cases hx : 0 < x ∧ x < 1
    · rw [if_pos hx, if_neg (by push Not; exact hx)]
      rcases h1 with rfl | rfl
      · rw [beta_one_left hβ]; simp
      · rw [beta_one_right hα]; simp
    · rw [if_neg hx, if_pos (by rw [not_and_or, not_lt, not_lt] at hx; exact hx)]
  have ae : betaPDFReal α β =ᵐ[volume] kumaraswamyPDF α β := Filter.Eventually.of_forall pe
  have hF := cdf_of_ae ae dd kd
  obtain ⟨s1, s2⟩ := same_meanVar ae dmv kmv
  refine ⟨SameOn.of dc kc subset_rfl subset_rfl fun t _ => by rw [hF], SameOn.of dp kp subset_rfl subset_rfl fun t _ => pe t, s1, s2,
    same_skew ae dsk ksk, same_entropy ae de ke, fun hne => ?_⟩
  obtain ⟨x, ⟨m, hm, hx⟩, hxI, hxF⟩ := C143_beta_median_partial h ha hb (by
    rcases hne with hne | hne
    · exact Or.inl hne
    · rcases h1 with h1 | h1
      · exact Or.inr (Or.inl ⟨h1, hne⟩)
      · exact Or.inr (Or.inr ⟨h1, hne⟩))
  refine ⟨m, hm, x, hx, ?_⟩
  have kI : km ∈ Ioo (0:ℝ) 1 := by
    constructor
    · by_contra hc
      rcases (not_lt.1 hc).lt_or_eq with hc | hc
      · rw [kumaraswamyCDF, if_pos hc] at km2; norm_num at km2
      · rw [kumaraswamyCDF, hc, if_neg (lt_irrefl _), if_neg (by norm_num), Real.zero_rpow hα.ne', sub_zero, Real.one_rpow] at km2; norm_num at km2
    · by_contra hc
      rw [kumaraswamyCDF, if_neg (by linarith [not_lt.1 hc]), if_pos (not_lt.1 hc)] at km2; norm_num at km2
  rw [hF] at hxF
  have hval : ∀ y ∈ Ioo (0:ℝ) 1, kumaraswamyCDF α β y = 1 / 2 → (1 - y ^ α) ^ β = 1 / 2 := fun y hy e => by
    rw [kumaraswamyCDF, if_neg (not_lt.2 hy.1.le), if_neg (not_le.2 hy.2)] at e; linarith
  have e := (hval x hxI hxF).trans (hval km kI km2).symm
  have p1 : ∀ y ∈ Ioo (0:ℝ) 1, 0 ≤ 1 - y ^ α := fun y hy => by
    have := Real.rpow_le_one hy.1.le hy.2.le hα.le; linarith
  have e2 := (Real.rpow_left_inj (p1 x hxI) (p1 km kI) hβ.ne').1 e
  have e3 := (Real.rpow_left_inj hxI.1.le kI.1.le hα.ne').1 (sub_right_injective e2)
  rw [e3]; exact km1

/-- C239: `Beta(1, 1)` and `Uniform(0, 1)`: cdf on [0, 1], pdf on (0, 1), mean, variance, skewness, entropy, median. -/
theorem C239_beta_uniform (h : BetaDist.new a b = .ok d) (ha : a.Is 1) (hb : b.Is 1) {l w : F64} {u : UniformF} (hl : l.Is 0) (hw : w.Is 1)
    (hu : UniformF.new l w = .ok u) :
    SameOn (Icc 0 1) (fun x => (d.cdf x).val) (fun x => (u.cdf x).val) ∧ SameOn (Ioo 0 1) d.pdf u.pdf ∧
    SameVal d.mean u.mean ∧ SameVal d.variance u.variance ∧ SameVal d.skewness u.skewness ∧ SameVal d.shannonEntropy u.shannonEntropy ∧
    ∃ m, d.median = .ok m ∧ SameVal m u.median := by
  obtain ⟨-, -, dp, dc, -, dd, dmv, dsk, de⟩ := C98_beta h ha hb
  obtain ⟨-, -, -, uc, -, -, up, -, ud, umv, usk, -, ue, ⟨um, um1, um2⟩, -⟩ := C53_uniform hu hl hw
  rw [zero_add] at *
  have pe : ∀ x, x ∉ ({0, 1} : Set ℝ) → betaPDFReal 1 1 x = uniformPDF 0 1 x := fun x hx => by
    simp only [mem_insert_iff, mem_singleton_iff, not_or] at hx
    unfold betaPDFReal uniformPDF
    by_cases hI : 0 < x ∧ x < 1
    · rw [if_pos hI, if_pos ⟨hI.1.le, hI.2.le⟩, beta_one_left one_pos]; simp
    · rw [if_neg hI, if_neg fun hc => hI ⟨lt_of_le_of_ne hc.1 (Ne.symm hx.1), lt_of_le_of_ne hc.2 hx.2⟩]
  have ae : betaPDFReal 1 1 =ᵐ[volume] uniformPDF 0 1 := ae_off (by simp) pe
  have hF := cdf_of_ae ae dd ud
  obtain ⟨s1, s2⟩ := same_meanVar ae dmv umv
  refine ⟨SameOn.of dc uc subset_rfl (subset_univ _) fun t _ => by rw [hF],
    SameOn.of dp up subset_rfl (subset_univ _) fun t ht => pe t (by simp [ht.1.ne', ht.2.ne]), s1, s2,
    same_skew ae dsk usk, same_entropy ae de ue, ?_⟩
  obtain ⟨x, ⟨m, hm, hx⟩, hxI, hxF⟩ := C143_beta_median_partial h ha hb (Or.inl rfl)
  refine ⟨m, hm, x, hx, ?_⟩
  rw [hF] at hxF
  have hval : ∀ y, uniformCDF 0 1 y = 1 / 2 → y = 1 / 2 := fun y e => by
    unfold uniformCDF at e; split_ifs at e
    · norm_num at e
    · norm_num at e
    · linarith
  rw [hval x hxF, ← hval um um2]; exact um1

/-- C239: `Beta(1/2, 1/2)` and `Arcsine(0, 1)`: cdf on [0, 1], pdf on (0, 1), mean, variance, skewness, median, modes, entropy. -/
theorem C239_beta_arcsine (h : BetaDist.new a b = .ok d) (ha : a.Is (1 / 2)) (hb : b.Is (1 / 2)) {l w : F64} {u : Arcsine} (hl : l.Is 0)
    (hw : w.Is 1) (hu : Arcsine.new l w = .ok u) :
    SameOn (Icc 0 1) (fun x => (d.cdf x).val) (fun x => (u.cdf x).val) ∧ SameOn (Ioo 0 1) d.pdf u.pdf ∧
    SameVal d.mean u.mean ∧ SameVal d.variance u.variance ∧ SameVal d.skewness u.skewness ∧
    (∃ m, d.median = .ok m ∧ SameVal m u.median) ∧ SameList d.modes u.modes ∧
    SameVal d.shannonEntropy u.shannonEntropy := by
  obtain ⟨-, -, dp, dc, -, dd, dmv, dsk, de⟩ := C98_beta h ha hb
  obtain ⟨-, -, uc, up, -, ud, umv, usk, -, ⟨um, um1, um2⟩⟩ := C57_arcsine hu hl hw
  have ue := (C58_arcsine_entropy_violated hu hl hw).2 rfl
  rw [zero_add] at *
  have pe : ∀ x, betaPDFReal (1 / 2) (1 / 2) x = arcsinePDF 0 1 x := fun x => by
    unfold betaPDFReal arcsinePDF
    by_cases hx : 0 < x ∧ x < 1
    · rw [if_pos hx, if_neg (by push Not; exact hx), beta_half_half, sub_zero, Real.sqrt_mul hx.1.le, Real.sqrt_eq_rpow, Real.sqrt_eq_rpow,
        show (1 / 2 : ℝ) - 1 = -(1 / 2) by norm_num, Real.rpow_neg hx.1.le, Real.rpow_neg (by linarith [hx.2])]
      have := Real.rpow_pos_of_pos hx.1 (1 / 2)
      have := Real.rpow_pos_of_pos (sub_pos.2 hx.2) (1 / 2)
      field_simp
    · rw [if_neg hx, if_pos (by rw [not_and_or, not_lt, not_lt] at hx; exact hx)]
  have ae : betaPDFReal (1 / 2) (1 / 2) =ᵐ[volume] arcsinePDF 0 1 := Filter.Eventually.of_forall pe
  have hF := cdf_of_ae ae dd ud
  obtain ⟨s1, s2⟩ := same_meanVar ae dmv umv
  obtain ⟨x, ⟨m, hm, hx⟩, hxI, hxF⟩ := C143_beta_median_partial h ha hb (Or.inl rfl)
  obtain ⟨_, _, rfl⟩ := BetaDist.new_ok.1 h
  obtain ⟨_, rfl⟩ := Arcsine.new_ok.1 hu
  refine ⟨SameOn.of dc uc subset_rfl subset_rfl fun t _ => by rw [hF],
    SameOn.of dp up subset_rfl subset_rfl fun t ht => pe t, s1, s2,
    same_skew ae dsk usk, ⟨m, hm, 1 / 2, ?_, ?_⟩, ?_, same_entropy ae de ue⟩
  · unfold BetaDist.median at hm
    rw [if_pos ((Is.lt_iff (ha.sub hb).abs BetaDist.tol_is).2 (by norm_num))] at hm
    cases hm; exact Is.fin _
  · unfold Arcsine.median Arcsine.mean Arcsine.b
    refine Is.congr (r := (0 + (0 + 1)) / 2) (by fev) (by norm_num)
  · unfold BetaDist.modes Arcsine.modes Arcsine.b
    rw [if_neg fun hc => absurd ((Is.lt_iff Is.one ha).1 hc.1) (by norm_num),
      if_pos ⟨(Is.lt_iff ha Is.one).2 (by norm_num), (Is.lt_iff hb Is.one).2 (by norm_num)⟩]
    exact List.Forall₂.cons ⟨0, Is.zero, hl⟩ (List.Forall₂.cons ⟨1, Is.one, (hl.add hw).congr (by norm_num)⟩ .nil)

/-- C239 (violated): for every α > 1 the modes of `Beta(α, 1)` and `Kumaraswamy(α, 1)`, which are the same law, differ: none against one. -/
theorem C239_beta_kumaraswamy_modes_violated (h : BetaDist.new a b = .ok d) (ha : a.Is α) (hb : b.Is 1) {k : Kumaraswamy}
    (hk : Kumaraswamy.new a b = .ok k) (h1 : 1 < α) : d.modes = [] ∧ ¬ SameList d.modes k.modes := by
  obtain ⟨-, -, -, -, -, -, -, -, -, -, -, -, hm, -⟩ := C72_kumaraswamy hk ha hb
  obtain ⟨y, hy, -⟩ := hm h1 rfl
  obtain ⟨_, _, rfl⟩ := BetaDist.new_ok.1 h
  have : BetaDist.modes ⟨a, b⟩ = [] := by
    unfold BetaDist.modes
    rw [if_neg fun hc => absurd ((Is.lt_iff Is.one hb).1 hc.2) (lt_irrefl _), if_neg fun hc => absurd ((Is.lt_iff hb Is.one).1 hc.2) (lt_irrefl _)]
  exact ⟨this, fun hc => by rw [this, hy] at hc; cases hc⟩
end

/-! ### heavy tails -/
section
variable [FP] [FP.Exact]

/-- C240: `Pareto(x_m, α)` and `GPD(x_m, x_m/α, 1/α)`: cdf and pdf on [x_m, ∞), median, entropy. (Mean and variance: GPD's are refused or
wrong, C80.) -/
theorem C240_pareto_gpd_partial {a b : F64} {m α : ℝ} {d : Pareto} (h : Pareto.new a b = .ok d) (ha : a.Is m) (hb : b.Is α) (hm : 0 < m)
    {x y z : F64} {g : GeneralisedPareto} (hx : x.Is m) (hy : y.Is (m / α)) (hz : z.Is (1 / α)) (hg : GeneralisedPareto.new x y z = .ok g) :
    SameOn (Ici m) (fun x => (d.cdf x).val) (fun x => (g.cdf x).val) ∧ SameOn (Ici m) d.pdf g.pdf ∧ SameVal d.median g.median ∧
    SameVal d.shannonEntropy g.shannonEntropy := by
  obtain ⟨hα, dc, dp, -, dd, -, -, -, -, -, -, -, -, ⟨dm, dm1, dm2⟩, -, de⟩ := C73_pareto h ha hb hm
  obtain ⟨-, -, gc, gp, -, gd, ⟨gm, gm1, gm2⟩, ge⟩ := C79_gpd hg hx hy hz
  have base : ∀ t : ℝ, 1 + 1 / α * ((t - m) / (m / α)) = t / m := fun t => by field_simp; ring
  have pe : ∀ t, Spec.paretoPDF m α t = gpdPDF m (m / α) (1 / α) t := fun t => by
    unfold Spec.paretoPDF gpdPDF
    split_ifs with ht
    · rfl
    · have ht0 : 0 < t := lt_of_lt_of_le hm (not_lt.1 ht)
      rw [base, one_div_one_div, Real.div_rpow ht0.le hm.le, Real.rpow_neg hm.le, Real.rpow_add hm, Real.rpow_one]
      have := Real.rpow_pos_of_pos hm α
      field_simp
  have ae : Spec.paretoPDF m α =ᵐ[volume] gpdPDF m (m / α) (1 / α) := Filter.Eventually.of_forall pe
  have hF := cdf_of_ae ae dd gd
  refine ⟨SameOn.of dc gc subset_rfl subset_rfl fun t _ => by rw [hF], SameOn.of dp gp (subset_univ _) subset_rfl fun t _ => pe t,
    ?_, same_entropy ae de ge⟩
  have hpos : ∀ t, paretoCDF m α t = 1 / 2 → m < t := fun t ht => by
    by_contra hc; rw [paretoCDF, if_pos (not_lt.1 hc)] at ht; norm_num at ht
  have hinj : ∀ s t, paretoCDF m α s = 1 / 2 → paretoCDF m α t = 1 / 2 → s = t := fun s t hs ht => by
    have ps := hpos s hs
    have pt := hpos t ht
    rw [paretoCDF, if_neg (not_le.2 ps)] at hs
    rw [paretoCDF, if_neg (not_le.2 pt)] at ht
    have hs0 : 0 < s := hm.trans ps
    have ht0 : 0 < t := hm.trans pt
    have e := (Real.rpow_left_inj (x := m / s) (y := m / t) (by positivity) (by positivity) hα.ne').1 (by linarith)
    field_simp at e; exact e.symm
  rw [← hF] at gm2
  obtain rfl := hinj _ _ dm2 gm2
  exact ⟨_, dm1, gm1⟩

/-- C240 (violated): wherever the Pareto mean is finite (α > 1) the mean of the generalised Pareto law with the same distribution is
refused: `mean()` panics. -/
theorem C240_pareto_gpd_mean_violated {a b : F64} {m α : ℝ} {d : Pareto} (h : Pareto.new a b = .ok d) (ha : a.Is m) (hb : b.Is α) (hm : 0 < m)
    {x y z : F64} {g : GeneralisedPareto} (hz : z.Is (1 / α)) (hg : GeneralisedPareto.new x y z = .ok g) (h1 : 1 < α) :
    (∃ μ : ℝ, d.mean.Is μ) ∧ g.mean = .error .undefined := by
  obtain ⟨hα, -, -, -, -, dm, -⟩ := C73_pareto h ha hb hm
  obtain ⟨μ, h2, -⟩ := dm h1
  obtain ⟨_, _, rfl⟩ := GeneralisedPareto.new_ok.1 hg
  refine ⟨⟨μ, h2⟩, ?_⟩
  unfold GeneralisedPareto.mean
  rw [if_pos ((Is.le_iff hz Is.one).2 (by rw [div_le_one hα]; exact h1.le))]

/-- C240: `Frechet(α)` and `GEV(1, 1/α, 1/α)` (1/α at least the threshold 1e-7): cdf and pdf on (0, ∞), mean, variance, skewness and excess
kurtosis (finite or infinite), median, mode, entropy. -/
theorem C240_frechet_gev {a : F64} {α : ℝ} {d : Frechet} (h : Frechet.new a = .ok d) (ha : a.Is α)
    {x y z : F64} {g : GeneralisedExtremeValue} (hx : x.Is 1) (hy : y.Is (1 / α)) (hz : z.Is (1 / α))
    (hg : GeneralisedExtremeValue.new x y z = .ok g) (h7 : 1 / 10 ^ 7 ≤ 1 / α) :
    SameOn (Ioi 0) (fun x => (d.cdf x).val) (fun x => (g.cdf x).val) ∧ SameOn (Ioi 0) d.pdf g.pdf ∧
    (SameVal d.mean g.mean ∨ d.mean = pinf ∧ g.mean = pinf) ∧ (SameVal d.variance g.variance ∨ d.variance = pinf ∧ g.variance = pinf) ∧
    (SameVal d.skewness g.skewness ∨ d.skewness = pinf ∧ g.skewness = pinf) ∧
    (SameVal d.excessKurtosis g.excessKurtosis ∨ d.excessKurtosis = pinf ∧ g.excessKurtosis = pinf) ∧
    SameVal d.median g.median ∧ SameVal d.shannonEntropy g.shannonEntropy := by
  obtain ⟨hα, dc, dp, -, dd, d1, d1', d2, d2', d3, d3', d4, d4', ⟨dm, dm1, dm2⟩, -, de⟩ := C68_frechet h ha
  obtain ⟨hs, gc, gp, -, gd, g1, g1', g2, g2', g3, g3', g4, g4', ⟨gm, gm1, gm2⟩, -, ge⟩ := C81_gev hg hx hy hz h7
  have h0 : (1:ℝ) - 1 / α / (1 / α) = 0 := by rw [div_self hs.ne']; norm_num
  have base : ∀ t : ℝ, 1 + 1 / α * ((t - 1) / (1 / α)) = t := fun t => by field_simp; ring
  have pe : ∀ t, frechetPDF α t = gevPDF 1 (1 / α) (1 / α) t := fun t => by
    unfold frechetPDF gevPDF
    rw [h0, base]
    split_ifs with ht
    · rfl
    · rw [one_div_one_div, show -1 / (1 / α) = -α by field_simp, show -(α + 1) = -1 - α by ring]
      field_simp
  have ae : frechetPDF α =ᵐ[volume] gevPDF 1 (1 / α) (1 / α) := Filter.Eventually.of_forall pe
  have hF := cdf_of_ae ae dd gd
  have inv : ∀ n : ℝ, 0 < n → (1 / α < 1 / n ↔ n < α) := fun n hn => one_div_lt_one_div hα hn
  have inv' : ∀ n : ℝ, 0 < n → (1 / n ≤ 1 / α ↔ α ≤ n) := fun n hn => one_div_le_one_div hn hα
  rw [h0] at gc gp
  refine ⟨SameOn.of dc gc subset_rfl subset_rfl fun t _ => by rw [hF], SameOn.of dp gp subset_rfl subset_rfl fun t _ => pe t,
    ?_, ?_, ?_, ?_, ?_, same_entropy ae de ge⟩
  · rcases lt_or_ge 1 α with h1 | h1
    · obtain ⟨μ, i1, i2⟩ := d1 h1
      obtain ⟨ν, j1, j2⟩ := g1 (by rw [div_lt_one hα]; exact h1)
      have := (i2.ae ae).2.symm.trans j2.2
      exact Or.inl ⟨μ, i1, this ▸ j1⟩
    · exact Or.inr ⟨(d1' h1).1, (g1' (by rw [le_div_iff₀ hα]; linarith)).1⟩
  · rcases lt_or_ge 2 α with h1 | h1
    · exact Or.inl (same_meanVar ae (d2 h1) (g2 ((inv 2 two_pos).2 h1))).2
    · exact Or.inr ⟨(d2' h1).1, (g2' ((inv' 2 two_pos).2 h1)).1⟩
  · rcases lt_or_ge 3 α with h1 | h1
    · exact Or.inl (same_skew ae (d3 h1) (g3 ((inv 3 (by norm_num)).2 h1)))
    · exact Or.inr ⟨(d3' h1).1, (g3' ((inv' 3 (by norm_num)).2 h1)).1⟩
  · rcases lt_or_ge 4 α with h1 | h1
    · obtain ⟨μ, i2, i1⟩ := d4 h1
      obtain ⟨ν, j2, j1⟩ := g4 ((inv 4 (by norm_num)).2 h1)
      obtain rfl := (i2.ae ae).unique j2
      exact Or.inl ⟨_, i1, j1⟩
    · exact Or.inr ⟨(d4' h1).1, (g4' ((inv' 4 (by norm_num)).2 h1)).1⟩
  · have hpos : ∀ t, frechetCDF α t = 1 / 2 → 0 < t := fun t ht => by
      by_contra hc; rw [frechetCDF, if_pos (not_lt.1 hc)] at ht; norm_num at ht
    have hinj : ∀ s t, frechetCDF α s = 1 / 2 → frechetCDF α t = 1 / 2 → s = t := fun s t hs ht => by
      have ps := hpos s hs
      have pt := hpos t ht
      rw [frechetCDF, if_neg (not_le.2 ps)] at hs
      rw [frechetCDF, if_neg (not_le.2 pt)] at ht
      exact (Real.rpow_left_inj ps.le pt.le (neg_ne_zero.2 hα.ne')).1 (neg_injective (Real.exp_injective (hs.trans ht.symm)))
    rw [← hF] at gm2
    obtain rfl := hinj _ _ dm2 gm2
    exact ⟨_, dm1, gm1⟩

theorem student_one (t : ℝ) : studentPDF 1 t = cauchyDensity 0 1 t := by
  unfold studentPDF cauchyDensity
  have hp := Real.pi_pos
  have h1 : (-(1 + 1) / 2 : ℝ) = -1 := by norm_num
  rw [show ((1:ℝ) + 1) / 2 = 1 by norm_num, Real.Gamma_one, Real.Gamma_one_half_eq, one_mul, Real.mul_self_sqrt hp.le, h1, div_one,
    Real.rpow_neg_one, sub_zero, div_one, mul_one]
  have : 0 < 1 + t ^ 2 := by positivity
  field_simp

/-- C240: `StudentT(1)` and `Cauchy(0, 1)`: pdf everywhere, median, mode. -/
theorem C240_student_cauchy_partial {a b n : F64} {d : StudentT} {c : Cauchy} (h : StudentT.new n = .ok d) (hn : n.Is 1)
    (hc : Cauchy.new a b = .ok c) (ha : a.Is 0) (hb : b.Is 1) :
    SameOn univ d.pdf c.pdf ∧ SameVal d.median c.median ∧ SameList d.modes c.modes := by
  obtain ⟨dp, -, dd, -, -, -, -, -, -, -, -, -, -⟩ := C156_student h hn one_pos
  obtain ⟨-, cc, cp, -, cd, -⟩ := C59_cauchy hc ha hb
  refine ⟨SameOn.of dp cp subset_rfl subset_rfl fun t _ => student_one t, ?_, ?_⟩
  · obtain rfl := (Cauchy.new_ok.1 hc).2
    exact ⟨0, Is.zero, ha⟩
  · obtain rfl := (Cauchy.new_ok.1 hc).2
    exact List.Forall₂.cons ⟨0, Is.zero, ha⟩ .nil

/-- C240 (violated): the cdfs of `StudentT(1)` and `Cauchy(0, 1)` agree at 0 and nowhere else. -/
theorem C240_student_cauchy_cdf_violated {a b n : F64} {d : StudentT} {c : Cauchy} (h : StudentT.new n = .ok d) (hn : n.Is 1)
    (hc : Cauchy.new a b = .ok c) (ha : a.Is 0) (hb : b.Is 1) (x : F64) (t : ℝ) (hx : x.Is t) :
    SameVal (d.cdf x).val (c.cdf x).val ↔ t = 0 := by
  obtain ⟨dp, -, dd, -⟩ := C156_student h hn one_pos
  obtain ⟨-, cc, cp, -, cd, -⟩ := C59_cauchy hc ha hb
  have hF := cdf_of_ae (Filter.Eventually.of_forall student_one) dd cd
  have hcx : (c.cdf x).val.Is (studentCDF 1 t) := by rw [hF]; exact cc x t (mem_univ _) hx
  constructor
  · rintro ⟨u, h1, h2⟩
    by_contra ht
    rw [h2.eq hcx] at h1
    exact (C157_student_cdf_violated h hn one_pos).1 x t hx ht (by norm_num) (by norm_num) h1
  · rintro rfl
    exact ⟨_, C157_student_cdf_partial h hn one_pos hx (Or.inl rfl), hcx⟩
end

section
attribute [local instance] exactFP exactFP_exact
example : SameVal (BetaDist.mean ⟨fin 3, fin 1⟩) (Kumaraswamy.mean ⟨fin 3, fin 1⟩) :=
  (C239_beta_kumaraswamy_partial (BetaDist.new_ok.2 ⟨lt_fin (by norm_num), lt_fin one_pos, rfl⟩) (Is.fin 3) (Is.fin 1)
    (Kumaraswamy.new_ok.2 ⟨lt_fin (by norm_num), lt_fin one_pos, rfl⟩) (Or.inr rfl)).2.2.1
example : ¬ SameList (BetaDist.modes ⟨fin 3, fin 1⟩) (Kumaraswamy.modes ⟨fin 3, fin 1⟩) :=
  (C239_beta_kumaraswamy_modes_violated (BetaDist.new_ok.2 ⟨lt_fin (by norm_num), lt_fin one_pos, rfl⟩) (Is.fin 3) (Is.fin 1)
    (Kumaraswamy.new_ok.2 ⟨lt_fin (by norm_num), lt_fin one_pos, rfl⟩) (by norm_num)).2
example : SameVal (BetaDist.mean ⟨fin 1, fin 1⟩) (UniformF.mean ⟨fin 0, fin 1, 1 / fin 1⟩) :=
  (C239_beta_uniform (BetaDist.new_ok.2 ⟨lt_fin one_pos, lt_fin one_pos, rfl⟩) (Is.fin 1) (Is.fin 1) (Is.fin 0) (Is.fin 1)
    (UniformF.new_ok.2 ⟨lt_fin one_pos, rfl⟩)).2.2.1
example : SameVal (BetaDist.mean ⟨fin (1 / 2), fin (1 / 2)⟩) (Arcsine.mean ⟨fin 0, fin 1⟩) :=
  (C239_beta_arcsine (BetaDist.new_ok.2 ⟨lt_fin (by norm_num), lt_fin (by norm_num), rfl⟩) (Is.fin _) (Is.fin _) (Is.fin 0) (Is.fin 1)
    (Arcsine.new_ok.2 ⟨lt_fin one_pos, rfl⟩)).2.2.1
example : SameVal (Pareto.median ⟨fin 3, fin 2⟩) (GeneralisedPareto.median ⟨fin 3, fin (3 / 2), fin (1 / 2)⟩) :=
  (C240_pareto_gpd_partial (Pareto.new_ok.2 ⟨lt_fin two_pos, rfl⟩) (Is.fin 3) (Is.fin 2) (by norm_num) (Is.fin 3) (Is.fin _) (Is.fin _)
    (GeneralisedPareto.new_ok.2 ⟨lt_fin (by norm_num), lt_fin (by norm_num), rfl⟩)).2.2.1
example : GeneralisedPareto.mean ⟨fin 3, fin (3 / 2), fin (1 / 2)⟩ = .error .undefined :=
  (C240_pareto_gpd_mean_violated (Pareto.new_ok.2 ⟨lt_fin two_pos, rfl⟩) (Is.fin 3) (Is.fin 2) (by norm_num) (Is.fin _)
    (GeneralisedPareto.new_ok.2 ⟨lt_fin (by norm_num), lt_fin (by norm_num), rfl⟩) one_lt_two).2
example : SameVal (Frechet.median ⟨fin 2⟩) (GeneralisedExtremeValue.median ⟨fin 1, fin (1 / 2), fin (1 / 2)⟩) :=
  (C240_frechet_gev (Frechet.new_ok.2 ⟨lt_fin two_pos, rfl⟩) (Is.fin 2) (Is.fin 1) (Is.fin _) (Is.fin _)
    (GeneralisedExtremeValue.new_ok.2 ⟨lt_fin (by norm_num), lt_fin (by norm_num), rfl⟩) (by norm_num)).2.2.2.2.2.2.1
example : ¬ SameVal (StudentT.cdf ⟨fin 1⟩ (fin 2)).val (Cauchy.cdf ⟨fin 0, fin 1⟩ (fin 2)).val := fun hc => by
  have := (C240_student_cauchy_cdf_violated (StudentT.new_ok.2 rfl) (Is.fin 1) (Cauchy.new_ok.2 ⟨lt_fin one_pos, rfl⟩) (Is.fin 0) (Is.fin 1)
    (fin 2) 2 (Is.fin 2)).1 hc
  norm_num at this
end
end Rstat
