import Verif.Model.Dist.BetaFamily
import Verif.Lemmas.Dist.BetaBinomial
import Verif.Lemmas.DistBase
import Verif.Lemmas.Positive
import Verif.Props.Utils

/-! Properties C159–C162: the Beta-binomial law. -/
set_option linter.unusedSectionVars false
namespace Rstat
open F64 Consts Spec MeasureTheory ProbabilityTheory Set Filter Topology

theorem BetaBinomial.new_ok [FP] {n : ℕ} {a b : F64} {d : BetaBinomial} :
    BetaBinomial.new n a b = .ok d ↔ 0 < a ∧ 0 < b ∧ d = BetaBinomial.fromParams n a b := by
  simp only [BetaBinomial.new, exc_bind_ok, Shape.new_ok, Count.newU_ok]
  constructor
  · rintro ⟨_, rfl, _, ⟨h0, rfl⟩, _, ⟨h1, rfl⟩, h⟩; exact ⟨h0, h1, by cases h; rfl⟩
  · rintro ⟨h0, h1, rfl⟩; exact ⟨_, rfl, _, ⟨h0, rfl⟩, _, ⟨h1, rfl⟩, rfl⟩

section
variable [FP] [FP.Exact] {n : ℕ} {a b : F64} {α β : ℝ} {d : BetaBinomial}

/-- C159: `pmf(k)` is the probability of `k` successes in `n` trials with a Beta-distributed success probability, for
every `k ≤ n` for which `choose` does not overflow; the masses sum to one; mean and variance are the law's. -/
theorem C159_beta_binomial (h : BetaBinomial.new n a b = .ok d) (ha : a.Is α) (hb : b.Is β) :
    0 < α ∧ 0 < β ∧
    (∀ pr k, k ≤ n → n < 2 ^ 64 → (∀ i < min k (n - k), n.choose i * (n - i) < 2 ^ 64) →
      ∃ r, d.pmf pr k = .ok r ∧ r.val.Is (∫ u, binPMF n u k * betaPDFReal α β u)) ∧
    (∀ k, ∫ u, binPMF n u k * betaPDFReal α β u = betaBinPMF n α β k) ∧
    IsPMF (betaBinPMF n α β) ∧
    (∃ m v, d.mean.Is m ∧ d.variance.Is v ∧ HasMeanVarD (betaBinPMF n α β) (fun k => (k : ℝ)) m v) := by
  obtain ⟨h0, h1, rfl⟩ := BetaBinomial.new_ok.1 h
  have hα : 0 < α := pos_of_lt h0 ha
  have hβ : 0 < β := pos_of_lt h1 hb
  have hab : 0 < α + β := by linarith
  have hB := Beta_pos hα hβ
  have mix : ∀ k, ∫ u, binPMF n u k * betaPDFReal α β u = betaBinPMF n α β k := fun k => by
    rw [(beta_supp (a := α) (b := β) (fun u => binPMF n u k)).2]; exact (bb_mixture hα hβ n k).2
  have hpi : (BetaBinomial.fromParams n a b).pi.Is (α / (α + β)) := ha.div (ha.add hb) hab.ne'
  have hrho : (BetaBinomial.fromParams n a b).rho.Is (1 / (α + β + 1)) := Is.one.div ((ha.add hb).add Is.one) (by linarith)
  have hN : (F64.ofNat n).Is (n:ℝ) := Is.ofNat n
  refine ⟨hα, hβ, fun pr k hk hn hfit => ?_, mix, bb_pmf hα hβ n, ⟨_, _, hN.mul hpi, ?_, bb_meanVar hα hβ n⟩⟩
  · have hk' : (k:ℝ) ≤ n := by exact_mod_cast hk
    unfold BetaBinomial.pmf BetaBinomial.pmfRaw
    simp only [BetaBinomial.fromParams]
    rw [choose_eq_core pr n k hn hk hfit]
    refine ⟨_, rfl, ?_⟩
    rw [mix]
    exact ((Is.ofNat _).mul (((Is.ofNat k).add ha).beta ((hN.sub (Is.ofNat k)).add hb) (by positivity) (by linarith))).div (ha.beta hb hα hβ) hB.ne'
  · have e := (((hN.mul hpi).mul (Is.one.sub hpi)).mul (Is.one.add ((hN.sub Is.one).mul hrho)))
    refine e.congr ?_
    have : α + β + 1 ≠ 0 := by linarith
    field_simp; ring

/-- C160 (violated): `skewness` returns the third *raw* moment `E X³`; whenever `α ≥ β` this is positive while the
skewness is not. -/
theorem C160_beta_binomial_skewness_violated (h : BetaBinomial.new n a b = .ok d) (ha : a.Is α) (hb : b.Is β) (hn : 0 < n) :
    (∃ r, d.skewness.Is r ∧ HasSum (fun k : ℕ => (k : ℝ) ^ 3 * betaBinPMF n α β k) r) ∧
    (∃ s, HasSkewD (betaBinPMF n α β) (fun k => (k : ℝ)) s ∧ (β ≤ α → ¬ d.skewness.Is s)) := by
  obtain ⟨h0, h1, rfl⟩ := BetaBinomial.new_ok.1 h
  have hα : 0 < α := pos_of_lt h0 ha
  have hβ : 0 < β := pos_of_lt h1 hb
  have hab : 0 < α + β := by linarith
  have hn' : (0:ℝ) < n := by exact_mod_cast hn
  have hpi : (BetaBinomial.fromParams n a b).pi.Is (α / (α + β)) := ha.div (ha.add hb) hab.ne'
  have hrho : (BetaBinomial.fromParams n a b).rho.Is (1 / (α + β + 1)) := Is.one.div ((ha.add hb).add Is.one) (by linarith)
  have hN : (F64.ofNat n).Is (n:ℝ) := Is.ofNat n
  have a1 := ha.add Is.one
  have a2 := a1.add Is.one
  have e : (BetaBinomial.fromParams n a b).skewness.Is (α / (α + β) * (1 / (α + β + 1)) * n *
      (n * n * (α + 1) * (α + 1 + 1) + 3 * n * (α + 1) * β + β * (β - α)) / (α + 1 + 1 + β)) :=
    (((hpi.mul hrho).mul hN).mul (((((hN.mul hN).mul a1).mul a2).add ((((Is.num 3).mul hN).mul a1).mul hb)).add (hb.mul (hb.sub ha)))).div
      (a2.add hb) (by linarith)
  have hs := bb_raw3 hα hβ n
  have n1 : α + β + 1 ≠ 0 := by linarith
  have n2 : α + β + 2 ≠ 0 := by linarith
  have e' := e.congr (show _ = n * (α / (α + β)) * ((n - 1) * ((α + 1) / (α + β + 1)) * ((n - 2) * ((α + 2) / (α + β + 2)) + 1) +
      2 * ((n - 1) * ((α + 1) / (α + β + 1))) + 1) by
    rw [show α + 1 + 1 + β = α + β + 2 by ring]
    field_simp; ring)
  refine ⟨⟨_, e', hs⟩, _, bb_skew hα hβ hn, fun hle hc => ?_⟩
  have heq := e'.eq hc
  have hneg : (α + β + 2 * n) * (β - α) / (α + β + 2) * Real.sqrt ((α + β + 1) / (n * α * β * (α + β + n))) ≤ 0 := by
    refine mul_nonpos_of_nonpos_of_nonneg (div_nonpos_of_nonpos_of_nonneg ?_ (by linarith)) (Real.sqrt_nonneg _)
    exact mul_nonpos_of_nonneg_of_nonpos (by positivity) (by linarith)
  have hpos : 0 < n * (α / (α + β)) * ((n - 1) * ((α + 1) / (α + β + 1)) * ((n - 2) * ((α + 2) / (α + β + 2)) + 1) +
      2 * ((n - 1) * ((α + 1) / (α + β + 1))) + 1) := by
    have m0 : n * (α / (α + β)) ≤ n * (α / (α + β)) * ((n - 1) * ((α + 1) / (α + β + 1)) * ((n - 2) * ((α + 2) / (α + β + 2)) + 1) +
      2 * ((n - 1) * ((α + 1) / (α + β + 1))) + 1) := by
      refine hasSum_le (fun k => ?_) (bb_raw1 hα hβ n) hs
      refine mul_le_mul_of_nonneg_right ?_ (bb_nonneg hα hβ n k)
      rcases Nat.eq_zero_or_pos k with rfl | hk
      · simp
      · have : (1:ℝ) ≤ k := by exact_mod_cast hk
        calc (k:ℝ) = k ^ 1 := (pow_one _).symm
          _ ≤ k ^ 3 := pow_le_pow_right₀ this (by norm_num)
    refine lt_of_lt_of_le ?_ m0
    positivity
  linarith

/-- C161 (violated): in `kurtosis` one term is divided by `α` where it should be multiplied by `α+β`: the value is the kurtosis
of the law exactly when `α(α+β) = 1`. -/
theorem C161_beta_binomial_kurtosis_violated (h : BetaBinomial.new n a b = .ok d) (ha : a.Is α) (hb : b.Is β) (hn : 0 < n) :
    ∃ k, HasKurtD (betaBinPMF n α β) (fun k => (k : ℝ)) k ∧ (d.kurtosis.Is k ↔ α * (α + β) = 1) := by
  obtain ⟨h0, h1, rfl⟩ := BetaBinomial.new_ok.1 h
  have hα : 0 < α := pos_of_lt h0 ha
  have hβ : 0 < β := pos_of_lt h1 hb
  have hab : 0 < α + β := by linarith
  have hn' : (0:ℝ) < n := by exact_mod_cast hn
  have hn1 : (1:ℝ) ≤ n := by exact_mod_cast hn
  have hpi : (BetaBinomial.fromParams n a b).pi.Is (α / (α + β)) := ha.div (ha.add hb) hab.ne'
  have hrho : (BetaBinomial.fromParams n a b).rho.Is (1 / (α + β + 1)) := Is.one.div ((ha.add hb).add Is.one) (by linarith)
  have hN : (F64.ofNat n).Is (n:ℝ) := Is.ofNat n
  have hs := ha.add hb
  have n1 : 0 < α + β + 1 := by linarith
  have n2 : 0 < α + β + 2 := by linarith
  have n3 : 0 < α + β + 3 := by linarith
  have m3 : (F64.fin (-3)).Is (-3) := Or.inl rfl
  have m18 : (F64.fin (-18)).Is (-18) := Or.inl rfl
  have e : (BetaBinomial.fromParams n a b).kurtosis.Is
      (α / (n * (α / (α + β)) * (α / (α + β)) * (1 / (α + β + 1)) * β * (α + β + 2) * (α + β + 3) * (α + β + n)) *
        ((α + β - 1 + 6 * n) / α + 3 * α * β * (n - 2) + 6 * n * n + -3 * (α / (α + β)) * β * n * (6 - n) +
          -18 * (α / (α + β)) * β * n * n / (α + β))) :=
    (ha.div (((((((hN.mul hpi).mul hpi).mul hrho).mul hb).mul (hs.add (Is.num 2))).mul (hs.add (Is.num 3))).mul (hs.add hN)) (by positivity)).mul
      (((((((hs.sub Is.one).add ((Is.num 6).mul hN)).div ha hα.ne').add ((((Is.num 3).mul ha).mul hb).mul (hN.sub (Is.num 2)))).add
        (((Is.num 6).mul hN).mul hN)).add ((((m3.mul hpi).mul hb).mul hN).mul ((Is.num 6).sub hN))).add
        (((((m18.mul hpi).mul hb).mul hN).mul hN).div hs hab.ne'))
  refine ⟨_, bb_kurt hα hβ hn, ?_⟩
  have hC : 0 < (α + β) ^ 2 * (α + β + 1) / (n * α * β * (α + β + 2) * (α + β + 3) * (α + β + n)) := by positivity
  have e' := e.congr (show _ = (α + β) ^ 2 * (α + β + 1) / (n * α * β * (α + β + 2) * (α + β + 3) * (α + β + n)) *
      ((α + β - 1 + 6 * n) / α + 3 * α * β * (n - 2) + 6 * n ^ 2 - 3 * α * β * n * (6 - n) / (α + β) - 18 * α * β * n ^ 2 / (α + β) ^ 2) by
    congr 1
    · field_simp
    · field_simp; ring)
  have hw : 0 < α + β - 1 + 6 * n := by linarith
  have hE : (α + β - 1 + 6 * n) / α = (α + β) * (α + β - 1 + 6 * n) ↔ α * (α + β) = 1 := by
    rw [div_eq_iff hα.ne']
    constructor
    · intro h
      have : (α + β - 1 + 6 * n) * (α * (α + β) - 1) = 0 := by linear_combination -h
      rcases mul_eq_zero.1 this with h | h <;> linarith
    · intro h; linear_combination -(α + β - 1 + 6 * n) * h
  constructor
  · intro hc
    have := mul_left_cancel₀ hC.ne' (e'.eq hc)
    exact hE.1 (by linarith)
  · intro h
    rw [← hE.2 h]; exact e'

/-- C162 (violated): the support reported is `{0, ..., n+1}`, one more than the law can produce: its last element has probability
zero; `cdf` is right from `n` on and not available below. -/
theorem C162_beta_binomial_support_violated (h : BetaBinomial.new n a b = .ok d) (ha : a.Is α) (hb : b.Is β) :
    (∀ pr, n + 1 < 2 ^ 64 → d.support pr = .ok (0, n + 1)) ∧ betaBinPMF n α β (n + 1) = 0 ∧
    (∀ k, n ≤ k → ∃ p, d.cdf k = .ok p ∧ p.val.Is 1 ∧ ∑ j ∈ Finset.range (k + 1), betaBinPMF n α β j = 1) ∧
    (∀ k, k < n → d.cdf k = .error .unimplemented) := by
  obtain ⟨h0, h1, rfl⟩ := BetaBinomial.new_ok.1 h
  have hα : 0 < α := pos_of_lt h0 ha
  have hβ : 0 < β := pos_of_lt h1 hb
  refine ⟨fun pr hn => ?_, bb_zero (Nat.lt_succ_self n), fun k hk => ⟨Probability.one, ?_, Is.one, ?_⟩, fun k hk => ?_⟩
  · unfold BetaBinomial.support
    rw [show (BetaBinomial.fromParams n a b).n = n from rfl, uadd_ok hn]; rfl
  · exact if_pos hk
  · exact (hasSum_sum_of_ne_finset_zero fun j hj => bb_zero (by simp at hj; omega)).unique (bb_pmf hα hβ n).2
  · exact if_neg (not_le.2 hk)
end

section
attribute [local instance] exactFP exactFP_exact

theorem bb_ex : ∃ d, BetaBinomial.new 10 (fin 3) (fin 2) = .ok d :=
  ⟨_, BetaBinomial.new_ok.2 ⟨lt_of_pos (by norm_num : (0:ℝ) < 3) (Or.inl rfl), lt_of_pos (by norm_num : (0:ℝ) < 2) (Or.inl rfl), rfl⟩⟩

example : ∃ d, BetaBinomial.new 10 (fin 3) (fin 2) = .ok d ∧ ∃ r, d.pmf .debug 4 = .ok r ∧ r.val.Is (betaBinPMF 10 3 2 4) := by
  obtain ⟨d, hd⟩ := bb_ex
  have H := C159_beta_binomial (α := 3) (β := 2) hd (Or.inl rfl) (Or.inl rfl)
  obtain ⟨r, h1, h2⟩ := H.2.2.1 .debug 4 (by norm_num) (by norm_num) (by decide)
  exact ⟨d, hd, r, h1, by rw [← H.2.2.2.1]; exact h2⟩
/-- the skewness and kurtosis of BetaBinomial(10, 3, 2) are wrong -/
example : ∃ d, BetaBinomial.new 10 (fin 3) (fin 2) = .ok d ∧ (∃ s, HasSkewD (betaBinPMF 10 3 2) (fun k => (k : ℝ)) s ∧ ¬ d.skewness.Is s) ∧
    ∃ k, HasKurtD (betaBinPMF 10 3 2) (fun k => (k : ℝ)) k ∧ ¬ d.kurtosis.Is k := by
  obtain ⟨d, hd⟩ := bb_ex
  obtain ⟨_, s, h1, h2⟩ := C160_beta_binomial_skewness_violated (α := 3) (β := 2) hd (Or.inl rfl) (Or.inl rfl) (by norm_num)
  obtain ⟨k, h3, h4⟩ := C161_beta_binomial_kurtosis_violated (α := 3) (β := 2) hd (Or.inl rfl) (Or.inl rfl) (by norm_num)
  exact ⟨d, hd, ⟨s, h1, h2 (by norm_num)⟩, k, h3, fun h => by have := h4.1 h; norm_num at this⟩
end
end Rstat
