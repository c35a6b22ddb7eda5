import Verif.Model.Dist.Pareto
import Verif.Lemmas.Dist.Pareto
import Verif.Lemmas.DistBase

/-! Properties C73, C74, C110: the Pareto law. -/
set_option linter.unusedSectionVars false
namespace Rstat
open F64 Consts Spec MeasureTheory ProbabilityTheory Set

theorem Pareto.new_ok [FP] {a b : F64} {d : Pareto} : Pareto.new a b = .ok d ↔ 0 < b ∧ d = ⟨a, b⟩ := by
  simp only [Pareto.new, exc_bind_ok, Loc.new_ok, Scale.new_ok]
  constructor
  · rintro ⟨_, rfl, _, ⟨h0, rfl⟩, h⟩; exact ⟨h0, by cases h; rfl⟩
  · rintro ⟨h0, rfl⟩; exact ⟨_, rfl, _, ⟨h0, rfl⟩, rfl⟩

section
variable [FP] [FP.Exact] {a b : F64} {m α : ℝ} {d : Pareto}

theorem pareto_cdf_is (hm : 0 < m) (ha : a.Is m) (hb : b.Is α) {x : F64} {t : ℝ} (ht : 0 < t) (hx : x.Is t) :
    (Pareto.cdf ⟨a, b⟩ x).val.Is (1 - (m / t) ^ α) := by
  unfold Pareto.cdf Probability.newUnchecked; fev

/-- C73: for a positive minimum `x_m`, `cdf` (on `x ≥ x_m`) and `pdf` (everywhere) are those of the Pareto law;
mean and variance are its moments where these exist and `+∞` exactly where they do not; skewness and excess kurtosis are
its moments where these exist and panic exactly where they do not; median, mode, entropy are right. -/
theorem C73_pareto (h : Pareto.new a b = .ok d) (ha : a.Is m) (hb : b.Is α) (hm : 0 < m) :
    0 < α ∧
    Computes (fun x => (d.cdf x).val) (paretoCDF m α) (Ici m) ∧
    Computes d.pdf (paretoPDF m α) univ ∧
    IsCDF (paretoCDF m α) ∧ IsDensityOf (paretoPDF m α) (paretoCDF m α) ∧
    (1 < α → ∃ μ, d.mean.Is μ ∧ HasMean (paretoPDF m α) μ) ∧
    (α ≤ 1 → d.mean = pinf ∧ ∀ μ, ¬ HasMean (paretoPDF m α) μ) ∧
    (2 < α → ∃ μ v, d.mean.Is μ ∧ d.variance.Is v ∧ HasMeanVar (paretoPDF m α) μ v) ∧
    (α ≤ 2 → d.variance = pinf ∧ ∀ μ v, ¬ HasCentral (paretoPDF m α) μ 2 v) ∧
    (3 < α → ∃ κ, Returns d.skewness κ ∧ HasSkew (paretoPDF m α) κ) ∧
    (α ≤ 3 → d.skewness = .error .undefined ∧ ∀ κ, ¬ HasSkew (paretoPDF m α) κ) ∧
    (4 < α → ∃ κ, HasKurt (paretoPDF m α) κ ∧ Returns d.excessKurtosis (κ - 3)) ∧
    (α ≤ 4 → d.excessKurtosis = .error .undefined ∧ ∀ κ, ¬ HasKurt (paretoPDF m α) κ) ∧
    (∃ x, d.median.Is x ∧ paretoCDF m α x = 1 / 2) ∧
    (∃ y x, d.modes = [y] ∧ y.Is x ∧ IsMode (paretoPDF m α) x) ∧
    (∃ e, d.shannonEntropy.Is e ∧ HasEntropy (paretoPDF m α) e) := by
  obtain ⟨h0, rfl⟩ := Pareto.new_ok.1 h
  have hα : 0 < α := pos_of_lt h0 hb
  obtain ⟨hF, hD⟩ := pareto_density hm hα
  have raw : ∀ n : ℕ, (n : ℝ) < α → HasCentral (paretoPDF m α) 0 n (α * m ^ n / (α - n)) := fun n hn => pareto_raw hm hα hn
  have r1 : 1 < α → HasMean (paretoPDF m α) (α * m / (α - 1)) := fun h => by
    have := raw 1 (by exact_mod_cast h)
    rw [Nat.cast_one, pow_one] at this
    exact hasMean_iff_raw.2 this
  have r2 : 2 < α → HasCentral (paretoPDF m α) 0 2 (α * m ^ 2 / (α - 2)) := fun h => by
    have := raw 2 (by exact_mod_cast h); rwa [Nat.cast_ofNat] at this
  have r3 : 3 < α → HasCentral (paretoPDF m α) 0 3 (α * m ^ 3 / (α - 3)) := fun h => by
    have := raw 3 (by exact_mod_cast h); rwa [Nat.cast_ofNat] at this
  have r4 : 4 < α → HasCentral (paretoPDF m α) 0 4 (α * m ^ 4 / (α - 4)) := fun h => by
    have := raw 4 (by exact_mod_cast h); rwa [Nat.cast_ofNat] at this
  have var : 2 < α → α * m ^ 2 / (α - 2) - (α * m / (α - 1)) ^ 2 = m ^ 2 * α / ((α - 1) ^ 2 * (α - 2)) := fun h => by
    have h1 : α - 1 ≠ 0 := by linarith
    have h2 : α - 2 ≠ 0 := by linarith
    field_simp; ring
  have hmean : 1 < α → (Pareto.mean ⟨a, b⟩).Is (α * m / (α - 1)) := fun h => by
    have c : ¬ b ≤ 1 := fun hc => absurd ((hb.le_iff Is.one).1 hc) (not_le.2 h)
    have : α - 1 ≠ 0 := by linarith
    unfold Pareto.mean; simp only [c, if_false]; fev
  refine ⟨hα, fun x t ht hx => ?_, fun x t _ hx => ?_, hF, hD, fun h => ⟨_, hmean h, r1 h⟩, fun h => ⟨?_, fun μ hμ => ?_⟩,
    fun h => ⟨_, _, hmean (by linarith), ?_, r1 (by linarith), central2 hD.integrable hD.total (r1 (by linarith)) (r2 h)⟩,
    fun h => ⟨?_, fun μ v => pareto_central_infinite hm hα (by exact_mod_cast h) μ v⟩,
    fun h => ?_, fun h => ⟨?_, ?_⟩, fun h => ?_, fun h => ⟨?_, ?_⟩, ⟨m * 2 ^ (1 / α), ?_, ?_⟩, ⟨_, _, rfl, ha, fun x => ?_⟩,
    ⟨_, ?_, pareto_entropy hm hα⟩⟩
  · have ht : m ≤ t := ht
    refine (pareto_cdf_is hm ha hb (hm.trans_le ht) hx).congr ?_
    unfold paretoCDF
    rcases ht.eq_or_lt with rfl | ht
    · rw [if_pos le_rfl, div_self hm.ne', Real.one_rpow, sub_self]
    · rw [if_neg (not_le.2 ht)]
  · unfold Pareto.pdf paretoPDF
    by_cases h : t < m
    · have c : x < a := (hx.lt_iff ha).2 h
      simp only [c, if_true, h]; exact Is.zero
    · have c : ¬ x < a := fun hc => h ((hx.lt_iff ha).1 hc)
      have ht : 0 < t := hm.trans_le (not_lt.1 h)
      simp only [c, if_false, h]
      refine Is.congr (r := α * m ^ α / t ^ (α + 1)) (by fev) ?_
      rw [Real.rpow_neg ht.le, div_eq_mul_inv]
  · have c : b ≤ 1 := (hb.le_iff Is.one).2 h
    unfold Pareto.mean; simp only [c, if_true]
  · exact pareto_central_infinite hm hα (n := 1) (by exact_mod_cast h) 0 μ (hasMean_iff_raw.1 hμ)
  · have c : ¬ b ≤ 2 := fun hc => absurd ((hb.le_iff (Is.num 2)).1 hc) (not_le.2 h)
    have h1 : α - 1 ≠ 0 := by linarith
    have h2 : α - 2 ≠ 0 := by linarith
    unfold Pareto.variance; simp only [c, if_false]
    refine Is.congr (r := m * m * α / (α - 1) / (α - 1) / (α - 2)) (by fev) ?_
    rw [var h]; field_simp
  · have c : b ≤ 2 := (hb.le_iff (Is.num 2)).2 h
    unfold Pareto.variance; simp only [c, if_true]
  · obtain ⟨hv, -, m3⟩ := skew_of_raw hD (r1 (by linarith)) (r2 (by linarith)) (r3 h)
    refine ⟨_, ?_, m3⟩
    have c : ¬ b ≤ 3 := fun hc => absurd ((hb.le_iff (Is.num 3)).1 hc) (not_le.2 h)
    have h1 : 0 < α - 1 := by linarith
    have h2 : 0 < α - 2 := by linarith
    have h3 : 0 < α - 3 := by linarith
    unfold Pareto.skewness; simp only [c, if_false]
    refine ⟨_, rfl, Is.congr (r := 2 * (1 + α) / (α - 3) * Real.sqrt ((α - 2) / α)) (by fev) ?_⟩
    rw [var (by linarith)]
    have e : Real.sqrt (m ^ 2 * α / ((α - 1) ^ 2 * (α - 2))) = m / (α - 1) * Real.sqrt (α / (α - 2)) := by
      rw [show m ^ 2 * α / ((α - 1) ^ 2 * (α - 2)) = (m / (α - 1)) ^ 2 * (α / (α - 2)) by field_simp,
        Real.sqrt_mul (by positivity), Real.sqrt_sq (by positivity)]
    have e2 : Real.sqrt ((α - 2) / α) = 1 / Real.sqrt (α / (α - 2)) := by
      rw [show (α - 2) / α = (α / (α - 2))⁻¹ by rw [inv_div], Real.sqrt_inv, one_div]
    rw [e, e2]
    have hq : Real.sqrt (α / (α - 2)) ^ 2 = α / (α - 2) := Real.sq_sqrt (by positivity)
    have hq0 : 0 < Real.sqrt (α / (α - 2)) := Real.sqrt_pos.2 (by positivity)
    generalize Real.sqrt (α / (α - 2)) = q at *
    rw [mul_pow, show q ^ 3 = q ^ 2 * q by ring, hq]
    field_simp
    ring
  · have c : b ≤ 3 := (hb.le_iff (Is.num 3)).2 h
    unfold Pareto.skewness; simp only [c, if_true]
  · rintro κ ⟨c, v, -, -, h3⟩
    exact pareto_central_infinite hm hα (n := 3) (by exact_mod_cast h) _ _ h3
  · obtain ⟨hv, -, -, m4⟩ := moments_of_raw hD (r1 (by linarith)) (r2 (by linarith)) (r3 (by linarith)) (r4 h)
    refine ⟨_, m4, ?_⟩
    have c : ¬ b ≤ 4 := fun hc => absurd ((hb.le_iff (Is.num 4)).1 hc) (not_le.2 h)
    have h1 : α - 1 ≠ 0 := by linarith
    have h2 : α - 2 ≠ 0 := by linarith
    have h3 : α - 3 ≠ 0 := by linarith
    have h4 : α - 4 ≠ 0 := by linarith
    unfold Pareto.excessKurtosis; simp only [c, if_false]
    refine ⟨_, rfl, Is.congr (r := 6 * (α * α * α + α * α - 6 * α - 2) / α / (α - 3) / (α - 4)) (by fev) ?_⟩
    rw [var (by linarith)]
    field_simp
    ring
  · have c : b ≤ 4 := (hb.le_iff (Is.num 4)).2 h
    unfold Pareto.excessKurtosis; simp only [c, if_true]
  · rintro κ ⟨c, v, -, -, h4⟩
    exact pareto_central_infinite hm hα (n := 4) (by exact_mod_cast h) _ _ h4
  · unfold Pareto.median; fev
  · have hgt : m < m * 2 ^ (1 / α) := lt_mul_of_one_lt_right hm (Real.one_lt_rpow one_lt_two (by positivity))
    rw [paretoCDF, if_neg (not_le.2 hgt), show m / (m * 2 ^ (1 / α)) = (2 ^ (1 / α))⁻¹ by field_simp,
      Real.inv_rpow (by positivity), ← Real.rpow_mul zero_le_two, show 1 / α * α = 1 by field_simp, Real.rpow_one]
    norm_num
  · rw [paretoPDF, paretoPDF, if_neg (lt_irrefl m)]
    split_ifs with h
    · positivity
    · have : x ^ (-(α + 1)) ≤ m ^ (-(α + 1)) := Real.rpow_le_rpow_of_nonpos hm (not_lt.1 h) (by linarith)
      gcongr
  · unfold Pareto.shannonEntropy
    refine Is.congr (r := Real.log (m / α * Real.exp (1 + 1 / α))) (by fev) ?_
    rw [Real.log_mul (by positivity) (Real.exp_ne_zero _), Real.log_exp]; ring

/-- C74 (violated): `new` accepts every `x_m` whatsoever (zero, negative, even NaN or infinite); and with a positive
`x_m`, `cdf` at every point of `(0, x_m)` is a negative number, not a valid probability. -/
theorem C74_pareto_below_support_violated :
    (∀ xm b : F64, 0 < b → ∃ d, Pareto.new xm b = .ok d) ∧
    ∀ (a b : F64) (m α : ℝ) (d : Pareto), Pareto.new a b = .ok d → a.Is m → b.Is α → 0 < m →
      ∀ (x : F64) (t : ℝ), x.Is t → 0 < t → t < m → paretoCDF m α t = 0 ∧
        ∃ r, (d.cdf x).val.Is r ∧ r < 0 ∧ ¬ (d.cdf x).isValid := by
  refine ⟨fun xm b hb => ⟨_, Pareto.new_ok.2 ⟨hb, rfl⟩⟩, fun a b m α d h ha hb hm x t hx ht htm => ?_⟩
  obtain ⟨h0, rfl⟩ := Pareto.new_ok.1 h
  have hα : 0 < α := pos_of_lt h0 hb
  have hc := pareto_cdf_is hm ha hb ht hx
  have hn : 1 - (m / t) ^ α < 0 := sub_neg.2 (Real.one_lt_rpow ((one_lt_div ht).2 htm) hα)
  refine ⟨by rw [paretoCDF, if_pos htm.le], _, hc, hn, fun hv => ?_⟩
  have := (Is.zero.le_iff hc).1 hv.2
  linarith

/-- C110 (violated): the Fisher information of the Pareto family in `(x_m, α)` is `diag(α²/x_m², 1/α²)`. The returned
matrix has a wrong off-diagonal entry for every parameter, and a wrong first entry for every `α ≠ 1`. -/
theorem C110_pareto_fisher_violated (h : Pareto.new a b = .ok d) (ha : a.Is m) (hb : b.Is α) (hm : 0 < m) :
    let I := fisher (fun θ : Fin 2 → ℝ => paretoPDF (θ 0) (θ 1)) ![m, α]
    (∃ r, (d.fisherInformation 0 1).Is r ∧ r ≠ I 0 1) ∧ (∃ r, (d.fisherInformation 1 0).Is r ∧ r ≠ I 1 0) ∧
    (∃ r, (d.fisherInformation 0 0).Is r ∧ (r = I 0 0 ↔ α = 1)) := by
  obtain ⟨h0, rfl⟩ := Pareto.new_ok.1 h
  have hα : 0 < α := pos_of_lt h0 hb
  obtain ⟨f1, f2, f3, f4⟩ := pareto_fisher hm hα
  have hn : (-1 : ℝ) / m ≠ 0 := div_ne_zero (by norm_num) hm.ne'
  refine ⟨⟨-1 / m, ?_, by rw [f2]; exact hn⟩, ⟨-1 / m, ?_, by rw [f3]; exact hn⟩, ⟨α / m / m, ?_, ?_⟩⟩
  · unfold Pareto.fisherInformation; simp only [Matrix.cons_val_zero, Matrix.cons_val_one]; fev
  · unfold Pareto.fisherInformation; simp only [Matrix.cons_val_zero, Matrix.cons_val_one]; fev
  · unfold Pareto.fisherInformation; simp only [Matrix.cons_val_zero]; fev
  · rw [f1]
    constructor
    · intro e
      field_simp at e
      nlinarith
    · rintro rfl; field_simp

/-- C110 (what holds): the last diagonal entry is the Fisher information in `α`. -/
theorem C110_pareto_fisher_partial (h : Pareto.new a b = .ok d) (ha : a.Is m) (hb : b.Is α) (hm : 0 < m) :
    (d.fisherInformation 1 1).Is (fisher (fun θ : Fin 2 → ℝ => paretoPDF (θ 0) (θ 1)) ![m, α] 1 1) := by
  obtain ⟨h0, rfl⟩ := Pareto.new_ok.1 h
  have hα : 0 < α := pos_of_lt h0 hb
  obtain ⟨f1, f2, f3, f4⟩ := pareto_fisher hm hα
  rw [f4]
  unfold Pareto.fisherInformation; simp only [Matrix.cons_val_one]
  exact Is.congr (r := 1 / α / α) (by fev) (by field_simp)

end

section
attribute [local instance] exactFP exactFP_exact
example : ∃ d, Pareto.new (fin 2) (fin (7/2)) = .ok d ∧ (∃ κ, Returns d.skewness κ) ∧ d.excessKurtosis = .error .undefined := by
  have h : Pareto.new (fin 2) (fin (7/2)) = .ok ⟨fin 2, fin (7/2)⟩ := Pareto.new_ok.2 ⟨fin_lt_fin.2 (by norm_num), rfl⟩
  obtain ⟨-, -, -, -, -, -, -, -, -, hs, -, -, hk, -⟩ := C73_pareto h (Is.fin _) (Is.fin _) (by norm_num)
  obtain ⟨κ, h2, _⟩ := hs (by norm_num)
  exact ⟨_, h, ⟨κ, h2⟩, (hk (by norm_num)).1⟩
end
end Rstat
