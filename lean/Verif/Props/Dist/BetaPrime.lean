import Verif.Model.Dist.BetaFamily
import Verif.Lemmas.Dist.BetaPrime
import Verif.Lemmas.DistBase
import Verif.Lemmas.Positive

/-! Properties C148–C150: the Beta prime law. -/
set_option linter.unusedSectionVars false
namespace Rstat
open F64 Consts Spec MeasureTheory ProbabilityTheory Set Filter Topology

theorem BetaPrime.new_ok [FP] {a b : F64} {d : BetaPrime} : BetaPrime.new a b = .ok d ↔ 0 < a ∧ 0 < b ∧ d = ⟨a, b⟩ := by
  simp only [BetaPrime.new, exc_bind_ok, Shape.new_ok]
  constructor
  · rintro ⟨_, ⟨h0, rfl⟩, _, ⟨h1, rfl⟩, h⟩; exact ⟨h0, h1, by cases h; rfl⟩
  · rintro ⟨h0, h1, rfl⟩; exact ⟨_, ⟨h0, rfl⟩, _, ⟨h1, rfl⟩, rfl⟩

section
variable [FP] [FP.Exact] {a b : F64} {α β : ℝ} {d : BetaPrime}

/-- C148: the Beta prime law: density and distribution function on the support; mean, variance and skewness are returned
exactly when they exist (and are then right), refused otherwise; the mode. -/
theorem C148_beta_prime (h : BetaPrime.new a b = .ok d) (ha : a.Is α) (hb : b.Is β) :
    0 < α ∧ 0 < β ∧
    Computes d.pdf (betaPrimePDF α β) (Ioi 0) ∧
    Computes (fun x => (d.cdf x).val) (betaPrimeCDF α β) (Ici 0) ∧
    IsCDF (betaPrimeCDF α β) ∧ IsDensityOf (betaPrimePDF α β) (betaPrimeCDF α β) ∧
    (1 < β → ∃ m, Returns d.mean m ∧ HasMean (betaPrimePDF α β) m) ∧
    (β ≤ 1 → d.mean = .error .undefined ∧ ∀ m, ¬ HasMean (betaPrimePDF α β) m) ∧
    (2 < β → ∃ m v, Returns d.variance v ∧ HasMeanVar (betaPrimePDF α β) m v) ∧
    (β ≤ 2 → d.variance = .error .undefined ∧ ∀ m v, ¬ HasMeanVar (betaPrimePDF α β) m v) ∧
    (3 < β → ∃ s, Returns d.skewness s ∧ HasSkew (betaPrimePDF α β) s) ∧
    (β ≤ 3 → d.skewness = .error .undefined ∧ ∀ s, ¬ HasSkew (betaPrimePDF α β) s) ∧
    (1 < α → ∃ x m, d.modes = [x] ∧ x.Is m ∧ IsMode (betaPrimePDF α β) m) ∧
    (α ≤ 1 → ∃ x, d.modes = [x] ∧ x.Is 0 ∧ AntitoneOn (betaPrimePDF α β) (Ioi 0) ∧
      (α < 1 → Tendsto (betaPrimePDF α β) (𝓝[>] 0) atTop)) := by
  obtain ⟨h0, h1, rfl⟩ := BetaPrime.new_ok.1 h
  have hα : 0 < α := pos_of_lt h0 ha
  have hβ : 0 < β := pos_of_lt h1 hb
  have hB := Beta_pos hα hβ
  obtain ⟨hF, hD⟩ := bp_density hα hβ
  obtain ⟨r1, r2, r3, r4⟩ := bp_raws (b := β) hα
  have nle : ∀ {c : ℝ} {x : F64}, x.Is c → c < β → ¬ b ≤ x := fun hc hlt hle =>
    absurd ((hb.le_iff hc).1 hle) (not_le.2 hlt)
  have yle : ∀ {c : ℝ} {x : F64}, x.Is c → β ≤ c → b ≤ x := fun hc hle => (hb.le_iff hc).2 hle
  have i1 : (1 : F64).Is 1 := Is.one
  have i2 : (2 : F64).Is 2 := Is.num 2
  have i3 : (3 : F64).Is 3 := Is.num 3
  have q1 : (1 : F64) ≤ a ↔ 1 ≤ α := Is.le_iff i1 ha
  refine ⟨hα, hβ, fun x t ht hx => ?_, fun x t ht hx => ?_, hF, hD, fun hc => ⟨_, ⟨a / (b - 1), ?_, ?_⟩, r1 hc⟩, fun hc => ⟨?_, fun m hm => ?_⟩,
    fun hc => ⟨_, _, ⟨a * (a + (b - 1)) / (b - 2) / (b - 1) / (b - 1), ?_, ?_⟩, bp_meanVar hα hc⟩,
    fun hc => ⟨?_, fun m v hm => bp_central_infinite hα hβ (n := 2) (by push_cast; exact hc) m v hm.2⟩,
    fun hc => ⟨_, ⟨2 * (2 * a + (b - 1)) / (b - 3) * ((b - 2) / (a * (a + (b - 1)))).sqrt, ?_, ?_⟩, bp_skew hα hc⟩,
    fun hc => ⟨?_, ?_⟩, fun hc => ⟨(a - 1) / (b + 1), _, ?_, ?_, bp_mode hc hβ⟩, fun hc => ?_⟩
  · have ht : 0 < t := ht
    have h1 : 0 < 1 + t := by linarith
    unfold BetaPrime.pdf; dsimp only
    rw [betaPrimePDF, if_neg (not_le.2 ht)]
    fev
  · have ht : 0 ≤ t := ht
    have h1 : 0 < 1 + t := by linarith
    have e : (BetaPrime.cdf ⟨a, b⟩ x).val.Is (betaI (t / (1 + t)) α β) :=
      Is.betainc (hx.div (i1.add hx) h1.ne') ha hb (by positivity) ((div_le_one h1).2 (by linarith)) hα hβ
    refine e.congr ?_
    rw [betaPrimeCDF]
    split_ifs with h
    · rw [le_antisymm h ht, zero_div, betaI_zero]
    · rfl
  · unfold BetaPrime.mean; rw [if_neg (nle i1 hc)]
  · exact ha.div (hb.sub i1) (by linarith)
  · unfold BetaPrime.mean; rw [if_pos (yle i1 hc)]
  · exact bp_central_infinite hα hβ (n := 1) (by push_cast; exact hc) 0 m (hasMean_iff_raw.1 hm)
  · unfold BetaPrime.variance; rw [if_neg (nle i2 hc)]
  · have n1 : β - 1 ≠ 0 := by linarith
    have n2 : β - 2 ≠ 0 := by linarith
    refine ((((ha.mul (ha.add (hb.sub i1))).div (hb.sub i2) n2).div (hb.sub i1) n1).div (hb.sub i1) n1).congr ?_
    field_simp
    ring
  · unfold BetaPrime.variance; rw [if_pos (yle i2 hc)]
  · unfold BetaPrime.skewness; rw [if_neg (nle i3 hc)]
  · have n3 : β - 3 ≠ 0 := by linarith
    have p : 0 < α * (α + (β - 1)) := mul_pos hα (by linarith)
    have n2 : 0 ≤ β - 2 := by linarith
    exact ((i2.mul ((i2.mul ha).add (hb.sub i1))).div (hb.sub i3) n3).mul
      (((hb.sub i2).div (ha.mul (ha.add (hb.sub i1))) p.ne').sqrt (div_nonneg n2 p.le))
  · unfold BetaPrime.skewness; rw [if_pos (yle i3 hc)]
  · rintro s ⟨m, v, _, _, hm⟩
    exact bp_central_infinite hα hβ (n := 3) (by push_cast; exact hc) m _ hm
  · unfold BetaPrime.modes; rw [if_pos (q1.2 hc.le)]
  · exact (ha.sub i1).div (hb.add i1) (by linarith)
  · unfold BetaPrime.modes
    rcases eq_or_lt_of_le hc with e | e
    · refine ⟨(a - 1) / (b + 1), by rw [if_pos (q1.2 e.ge)], ?_, bp_antitone hα hc hβ, fun h => absurd h (by linarith)⟩
      exact ((ha.sub i1).div (hb.add i1) (by linarith)).congr (by rw [e]; simp)
    · exact ⟨0, by rw [if_neg (fun h => absurd (q1.1 h) (not_le.2 e))], Is.zero, bp_antitone hα hc hβ, fun h => bp_zero_top hα h hβ⟩

/-- C149 (violated): for `β > 4`, where the kurtosis exists, the code's numerator `6(α+β-1)(5β-11) + (β-1)²(β-2)` misses
a factor: it is right exactly when `6(α-1)(α+β-1)(5β-11) + 5(β-1)²(β-2) = 0`, hence for no `α ≥ 1`. For `β ≤ 4` (other
than 3 and 4) a finite number is returned although the law has no kurtosis. -/
theorem C149_beta_prime_kurtosis_violated (h : BetaPrime.new a b = .ok d) (ha : a.Is α) (hb : b.Is β) :
    (4 < β → ∃ κ k, HasKurt (betaPrimePDF α β) κ ∧ d.excessKurtosis.Is k ∧ d.kurtosis.Is (k + 3) ∧
      (k = κ - 3 ↔ 6 * (α - 1) * (α + β - 1) * (5 * β - 11) + 5 * (β - 1) ^ 2 * (β - 2) = 0) ∧ (1 ≤ α → k ≠ κ - 3)) ∧
    (β ≤ 4 → β ≠ 3 → β ≠ 4 → α + β ≠ 1 → (∃ k, d.excessKurtosis.Is k) ∧ ∀ κ, ¬ HasKurt (betaPrimePDF α β) κ) := by
  obtain ⟨h0, h1, rfl⟩ := BetaPrime.new_ok.1 h
  have hα : 0 < α := pos_of_lt h0 ha
  have hβ : 0 < β := pos_of_lt h1 hb
  have hk : α * (α + (β - 1)) * (β - 3) * (β - 4) ≠ 0 → (BetaPrime.excessKurtosis ⟨a, b⟩).Is
      ((6 * (α + (β - 1)) * (5 * β - 11) + (β - 1) * (β - 1) * (β - 2)) / (α * (α + (β - 1)) * (β - 3) * (β - 4))) := fun hne => by
    unfold BetaPrime.excessKurtosis; dsimp only
    fev
  constructor
  · intro hc
    have n3 : 0 < β - 3 := by linarith
    have n4 : 0 < β - 4 := by linarith
    have p : 0 < α + (β - 1) := by linarith
    have hne : α * (α + (β - 1)) * (β - 3) * (β - 4) ≠ 0 := by positivity
    have hiff : (6 * (α + (β - 1)) * (5 * β - 11) + (β - 1) * (β - 1) * (β - 2)) / (α * (α + (β - 1)) * (β - 3) * (β - 4)) =
        3 + 6 * (α * (α + β - 1) * (5 * β - 11) + (β - 1) ^ 2 * (β - 2)) / (α * (α + β - 1) * (β - 3) * (β - 4)) - 3 ↔
        6 * (α - 1) * (α + β - 1) * (5 * β - 11) + 5 * (β - 1) ^ 2 * (β - 2) = 0 := by
      rw [add_sub_cancel_left, show α + β - 1 = α + (β - 1) by ring, div_left_inj' hne]
      constructor <;> intro h <;> linarith
    refine ⟨_, _, bp_kurt hα hc, hk hne, (hk hne).add (Is.num 3), hiff, fun h1 he => ?_⟩
    have := hiff.1 he
    have q1 : 0 ≤ 6 * (α - 1) * (α + β - 1) * (5 * β - 11) :=
      mul_nonneg (mul_nonneg (by linarith) (by linarith)) (by linarith)
    have q0 : 0 < β - 1 := by linarith
    have q2 : 0 < 5 * (β - 1) ^ 2 * (β - 2) := mul_pos (by positivity) (by linarith)
    linarith
  · intro hc c3 c4 c1
    refine ⟨⟨_, hk ?_⟩, ?_⟩
    · refine mul_ne_zero (mul_ne_zero (mul_ne_zero hα.ne' ?_) (sub_ne_zero.2 c3)) (sub_ne_zero.2 c4)
      intro h; apply c1; linarith
    · rintro s ⟨m, v, _, _, hm⟩
      exact bp_central_infinite hα hβ (n := 4) (by push_cast; exact hc) m _ hm

/-- C150 (violated for all parameters): `shannon_entropy` returns the entropy of the *Beta* law with the same shapes,
which falls short of the Beta prime entropy by `2(ψ(α+β) - ψ(β)) > 0`. -/
theorem C150_beta_prime_entropy_violated (h : BetaPrime.new a b = .ok d) (ha : a.Is α) (hb : b.Is β) :
    ∃ e c, HasEntropy (betaPrimePDF α β) e ∧ d.shannonEntropy.Is c ∧ c = e - 2 * (Spec.digamma (α + β) - Spec.digamma β) ∧ c < e ∧
      HasEntropy (betaPDFReal α β) c := by
  obtain ⟨h0, h1, rfl⟩ := BetaPrime.new_ok.1 h
  have hα : 0 < α := pos_of_lt h0 ha
  have hβ : 0 < β := pos_of_lt h1 hb
  have hl := digamma_lt hβ (by linarith : β < α + β)
  refine ⟨_, _, bp_entropy hα hβ, ?_, ?_, ?_, beta_entropy hα hβ⟩
  · unfold BetaPrime.shannonEntropy; dsimp only
    fev
  · ring
  · nlinarith
end

section
attribute [local instance] exactFP exactFP_exact
theorem bp_ex : BetaPrime.new (fin 3) (fin 6) = .ok ⟨fin 3, fin 6⟩ :=
  BetaPrime.new_ok.2 ⟨fin_lt_fin.2 (by norm_num), fin_lt_fin.2 (by norm_num), rfl⟩
theorem bp_ex2 : BetaPrime.new (fin 3) (fin 2) = .ok ⟨fin 3, fin 2⟩ :=
  BetaPrime.new_ok.2 ⟨fin_lt_fin.2 (by norm_num), fin_lt_fin.2 (by norm_num), rfl⟩
example : ∃ s, Returns (BetaPrime.skewness ⟨fin 3, fin 6⟩) s ∧ HasSkew (betaPrimePDF 3 6) s :=
  (C148_beta_prime bp_ex (Is.fin 3) (Is.fin 6)).2.2.2.2.2.2.2.2.2.2.1 (by norm_num)
example : ∃ κ k, HasKurt (betaPrimePDF 3 6) κ ∧ (BetaPrime.excessKurtosis ⟨fin 3, fin 6⟩).Is k ∧ k ≠ κ - 3 := by
  obtain ⟨κ, k, h1, h2, _, _, h3⟩ := (C149_beta_prime_kurtosis_violated bp_ex (Is.fin 3) (Is.fin 6)).1 (by norm_num)
  exact ⟨κ, k, h1, h2, h3 (by norm_num)⟩
example : (∃ k, (BetaPrime.excessKurtosis ⟨fin 3, fin 2⟩).Is k) ∧ ∀ κ, ¬ HasKurt (betaPrimePDF 3 2) κ :=
  (C149_beta_prime_kurtosis_violated bp_ex2 (Is.fin 3) (Is.fin 2)).2 (by norm_num) (by norm_num) (by norm_num) (by norm_num)
end
end Rstat
