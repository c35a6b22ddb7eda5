import Verif.Model.Dist.Binomial
import Verif.Lemmas.Dist.Binomial
import Verif.Lemmas.Constraints
import Verif.Lemmas.DistBase
import Verif.Lemmas.Consts

/-! Properties C85, C86, C118–C120: the Bernoulli law. -/
set_option linter.unusedSectionVars false
namespace Rstat
open F64 Consts Spec

theorem Bernoulli.new_ok [FP] {a : F64} {d : Bernoulli} :
    Bernoulli.new a = .ok d ↔ (0 ≤ a ∧ a ≤ 1) ∧ d = ⟨⟨a⟩, ⟨1 - a⟩, a * (1 - a)⟩ := by
  simp only [Bernoulli.new, exc_bind_ok, Probability.newE_ok]
  constructor
  · rintro ⟨_, ⟨h0, rfl⟩, h⟩; exact ⟨h0, by cases h; rfl⟩
  · rintro ⟨h0, rfl⟩; exact ⟨_, ⟨h0, rfl⟩, rfl⟩

/-- key inequality behind the Bernoulli and Poisson maximum likelihood estimates -/
theorem pow_le_mle {p : ℝ} (hp : 0 ≤ p) (n s : ℕ) (hn : 0 < n) :
    p ^ s ≤ ((s : ℝ) / n) ^ s * Real.exp (n * p - s) := by
  have hn' : (0:ℝ) < n := by exact_mod_cast hn
  rcases Nat.eq_zero_or_pos s with rfl | hs
  · simp only [pow_zero, Nat.cast_zero, sub_zero, one_mul]
    exact Real.one_le_exp (by positivity)
  · have hs' : (0:ℝ) < s := by exact_mod_cast hs
    have h1 : p / ((s : ℝ) / n) ≤ Real.exp (p / ((s : ℝ) / n) - 1) := by
      have := Real.add_one_le_exp (p / ((s : ℝ) / n) - 1); linarith
    have h2 := pow_le_pow_left₀ (by positivity) h1 s
    rw [div_pow, ← Real.exp_nat_mul, div_le_iff₀ (by positivity)] at h2
    refine h2.trans (le_of_eq ?_)
    rw [mul_comm]; congr 2; field_simp

section
variable [FP] [FP.Exact] {a : F64} {p : ℝ} {d : Bernoulli}

theorem Bernoulli.range (h : Bernoulli.new a = .ok d) (ha : a.Is p) : 0 ≤ p ∧ p ≤ 1 := by
  obtain ⟨h0, rfl⟩ := Bernoulli.new_ok.1 h
  exact ⟨(Is.zero.le_iff ha).1 h0.1, (ha.le_iff Is.one).1 h0.2⟩

theorem Bernoulli.pmf_is (h : Bernoulli.new a = .ok d) (ha : a.Is p) (b : Bool) : (d.pmf b).val.Is (bernPMF p b) := by
  obtain ⟨h0, rfl⟩ := Bernoulli.new_ok.1 h
  cases b
  · show (1 - a).Is (1 - p); fev
  · exact ha

theorem Bernoulli.variance_is (h : Bernoulli.new a = .ok d) (ha : a.Is p) : d.variance.Is (p * (1 - p)) := by
  obtain ⟨h0, rfl⟩ := Bernoulli.new_ok.1 h
  show (a * (1 - a)).Is _; fev

/-- C85: every accepted parameter lies in [0,1]; pmf, mean, variance, skewness are those of the Bernoulli law;
`kurtosis() = excess_kurtosis() + 3`. -/
theorem C85_bernoulli (h : Bernoulli.new a = .ok d) (ha : a.Is p) :
    (0 ≤ p ∧ p ≤ 1) ∧
    (∀ b, (d.pmf b).val.Is (bernPMF p b) ∧ (d.pmf b).isValid) ∧ IsPMF (bernPMF p) ∧
    (∃ m v, d.mean.Is m ∧ d.variance.Is v ∧ HasMeanVarD (bernPMF p) boolVal m v) ∧
    (0 < p → p < 1 → ∃ s, d.skewness.Is s ∧ HasSkewD (bernPMF p) boolVal s) ∧
    (0 < p → p < 1 → ∃ κ, d.kurtosis.Is κ ∧ d.excessKurtosis.Is (κ - 3)) := by
  obtain ⟨hp0, hp1⟩ := Bernoulli.range h ha
  have hv := Bernoulli.variance_is h ha
  refine ⟨⟨hp0, hp1⟩, fun b => ⟨Bernoulli.pmf_is h ha b, ?_⟩, bern_pmf hp0 hp1, ⟨p, _, ?_, hv, bern_meanVar⟩,
    fun h0 h1 => ⟨_, ?_, bern_skew h0 h1⟩, fun h0 h1 => ?_⟩
  · have hb := Bernoulli.pmf_is h ha b
    refine ⟨(hb.le_iff Is.one).2 ?_, (Is.zero.le_iff hb).2 ((bern_pmf hp0 hp1).1 b)⟩
    cases b <;> simp [bernPMF] <;> linarith
  · obtain ⟨_, rfl⟩ := Bernoulli.new_ok.1 h; exact ha
  · have hvp : 0 < p * (1 - p) := mul_pos h0 (by linarith)
    have hpv : d.p.val.Is p := Bernoulli.pmf_is h ha true
    have := Real.sqrt_pos.2 hvp
    unfold Bernoulli.skewness
    exact (Is.one.sub ((Is.num 2).mul hpv)).div (hv.sqrt hvp.le) this.ne'
  · have hvp : 0 < p * (1 - p) := mul_pos h0 (by linarith)
    refine ⟨1 / (p * (1 - p)) - 6, ?_, ?_⟩
    · unfold Bernoulli.kurtosis
      exact (Is.one.div hv hvp.ne').sub (Is.num 6)
    · unfold Bernoulli.excessKurtosis
      exact Is.congr ((Is.one.div hv hvp.ne').sub (Is.num 9)) (by norm_num; ring)

theorem bern_fold (xs : List Bool) (k : ℕ) :
    xs.foldl (fun acc (x : Bool) => acc + x.toNat) k = k + xs.count true := by
  induction xs generalizing k with
  | nil => simp
  | cons b xs ih => cases b <;> simp [ih]; omega

theorem bern_likelihood (p : ℝ) (xs : List Bool) :
    (xs.map (bernPMF p)).prod = p ^ xs.count true * (1 - p) ^ (xs.length - xs.count true) := by
  induction xs with
  | nil => simp
  | cons b xs ih =>
    have hle := List.count_le_length (a := true) (l := xs)
    cases b
    · simp only [List.map_cons, List.prod_cons, ih, bernPMF, List.length_cons]
      rw [List.count_cons_of_ne (by decide), show xs.length + 1 - xs.count true = xs.length - xs.count true + 1 by omega,
        pow_succ]; ring
    · simp only [List.map_cons, List.prod_cons, ih, bernPMF, List.length_cons, List.count_cons_self]
      rw [show xs.length + 1 - (xs.count true + 1) = xs.length - xs.count true by omega, pow_succ]; ring

/-- C85: `fit_mle` of non-empty data succeeds with the fraction of `true`, which maximises the likelihood over [0,1];
empty data is refused. -/
theorem C85_bernoulli_mle (xs : List Bool) :
    (xs ≠ [] → ∃ d q, Bernoulli.fitMle xs = .ok d ∧ d.p.val.Is q ∧ q = (xs.count true : ℝ) / xs.length ∧
      ∀ r, 0 ≤ r → r ≤ 1 → (xs.map (bernPMF r)).prod ≤ (xs.map (bernPMF q)).prod) ∧
    (∃ e, Bernoulli.fitMle [] = .error e) := by
  constructor
  · intro hne
    have hn : 0 < xs.length := List.length_pos_iff.2 hne
    have hn' : (0:ℝ) < xs.length := by exact_mod_cast hn
    have hle : xs.count true ≤ xs.length := List.count_le_length
    have hle' : (xs.count true : ℝ) ≤ xs.length := by exact_mod_cast hle
    have hq : (F64.ofNat (xs.foldl (fun acc (x : Bool) => acc + x.toNat) 0) / F64.ofNat xs.length).Is
        ((xs.count true : ℝ) / xs.length) := by
      rw [bern_fold, zero_add]; exact (Is.ofNat _).div (Is.ofNat _) hn'.ne'
    refine ⟨_, _, Bernoulli.new_ok.2 ⟨⟨(Is.zero.le_iff hq).2 (by positivity), (hq.le_iff Is.one).2 ((div_le_one hn').2 hle')⟩, rfl⟩,
      hq, rfl, fun r h0 h1 => ?_⟩
    rw [bern_likelihood, bern_likelihood]
    have e1 := pow_le_mle h0 xs.length (xs.count true) hn
    have e2 := pow_le_mle (p := 1 - r) (by linarith) xs.length (xs.length - xs.count true) hn
    have hq2 : (((xs.length - xs.count true : ℕ) : ℝ) / xs.length) = 1 - (xs.count true : ℝ) / xs.length := by
      rw [Nat.cast_sub hle]; field_simp
    rw [hq2] at e2
    have hq3 : 0 ≤ 1 - (xs.count true : ℝ) / xs.length := by rw [← hq2]; positivity
    refine (mul_le_mul e1 e2 (pow_nonneg (by linarith) _) (by positivity)).trans (le_of_eq ?_)
    rw [mul_mul_mul_comm, ← Real.exp_add, Nat.cast_sub hle]
    rw [show (xs.length : ℝ) * r - xs.count true + (xs.length * (1 - r) - (xs.length - xs.count true)) = 0 by ring,
      Real.exp_zero, mul_one]
  · unfold Bernoulli.fitMle
    have hz : (F64.ofNat (([] : List Bool).foldl (fun acc x => acc + x.toNat) 0) / F64.ofNat ([] : List Bool).length) = nan := by
      have h0 : (F64.ofNat 0) = fin 0 := by unfold F64.ofNat; rw [round_exact]; simp
      show F64.ofNat 0 / F64.ofNat 0 = nan
      rw [h0]
      show F64.div (fin 0) (fin 0) = nan
      simp [F64.div]
    simp only [hz]
    refine ⟨.prob ⟨nan⟩, ?_⟩
    simp [Bernoulli.new, Probability.newE, Probability.new, Except.mapError, Bind.bind, Except.bind]

/-- C86 (violated): `cdf(false)` is 0 for every parameter, while P(X ≤ false) = 1 - p; wrong unless p = 1. -/
theorem C86_bernoulli_cdf_violated (h : Bernoulli.new a = .ok d) (ha : a.Is p) :
    (d.cdf false).val.Is (∑ b ∈ Finset.univ.filter (· ≤ false), bernPMF p b) ↔ p = 1 := by
  have : (∑ b ∈ Finset.univ.filter (· ≤ false), bernPMF p b) = 1 - p := by
    rw [show (Finset.univ.filter (· ≤ false) : Finset Bool) = {false} by decide]; simp [bernPMF]
  rw [this]
  have hc : (d.cdf false).val.Is 0 := Is.zero
  constructor
  · intro h; have := h.eq hc; linarith
  · rintro rfl; exact hc.congr (by ring)

/-- C86 (what holds): `cdf(true) = 1`, and `cdf` is monotone with valid values. -/
theorem C86_bernoulli_cdf_partial (h : Bernoulli.new a = .ok d) (ha : a.Is p) :
    (d.cdf true).val.Is (∑ b ∈ Finset.univ.filter (· ≤ true), bernPMF p b) ∧ (d.cdf false).val ≤ (d.cdf true).val ∧
    ∀ b, (d.cdf b).isValid := by
  have : (∑ b ∈ Finset.univ.filter (· ≤ true), bernPMF p b) = 1 := by
    rw [show (Finset.univ.filter (· ≤ true) : Finset Bool) = Finset.univ by decide, Fintype.sum_bool]; simp [bernPMF]
  rw [this]
  refine ⟨Is.one, (Is.zero.le_iff Is.one).2 (by norm_num), fun b => ?_⟩
  cases b
  · exact ⟨(Is.zero.le_iff Is.one).2 (by norm_num), (Is.zero.le_iff Is.zero).2 le_rfl⟩
  · exact ⟨(Is.one.le_iff Is.one).2 le_rfl, (Is.zero.le_iff Is.one).2 (by norm_num)⟩

/-- C118 (violated): for every p in (0,1), `kurtosis()` and `excess_kurtosis()` are both off by exactly 3. -/
theorem C118_bernoulli_kurtosis_violated (h : Bernoulli.new a = .ok d) (ha : a.Is p) (h0 : 0 < p) (h1 : p < 1) :
    ∃ κ, HasKurtD (bernPMF p) boolVal κ ∧ d.kurtosis.Is (κ - 3) ∧ d.excessKurtosis.Is (κ - 6) ∧
      ¬ d.kurtosis.Is κ ∧ ¬ d.excessKurtosis.Is (κ - 3) := by
  have hv := Bernoulli.variance_is h ha
  have hvp : 0 < p * (1 - p) := mul_pos h0 (by linarith)
  have hk : d.kurtosis.Is (1 / (p * (1 - p)) - 3 - 3) := by
    unfold Bernoulli.kurtosis
    exact Is.congr ((Is.one.div hv hvp.ne').sub (Is.num 6)) (by norm_num; ring)
  have he : d.excessKurtosis.Is (1 / (p * (1 - p)) - 3 - 6) := by
    unfold Bernoulli.excessKurtosis
    exact Is.congr ((Is.one.div hv hvp.ne').sub (Is.num 9)) (by norm_num; ring)
  refine ⟨_, bern_kurt h0 h1, hk, he, fun hc => ?_, fun hc => ?_⟩
  · have := hc.eq hk; linarith
  · have := hc.eq he; linarith

theorem bern_ind (m : ℝ) (S : Set Bool) : HasSum (S.indicator (bernPMF p)) (S.indicator (bernPMF p) true + S.indicator (bernPMF p) false) :=
  hasSum_bool _

theorem bern_median (m : ℝ) : IsMedianD (bernPMF p) boolVal m ↔
    1 / 2 ≤ Set.indicator {x | boolVal x ≤ m} (bernPMF p) true + Set.indicator {x | boolVal x ≤ m} (bernPMF p) false ∧
    1 / 2 ≤ Set.indicator {x | m ≤ boolVal x} (bernPMF p) true + Set.indicator {x | m ≤ boolVal x} (bernPMF p) false := by
  constructor
  · rintro ⟨a, b, ha, hb, h1, h2⟩
    rw [ha.unique (hasSum_bool _)] at h1
    rw [hb.unique (hasSum_bool _)] at h2
    exact ⟨h1, h2⟩
  · rintro ⟨h1, h2⟩
    exact ⟨_, _, hasSum_bool _, hasSum_bool _, h1, h2⟩

open Classical in
theorem Bernoulli.median_cases (h : Bernoulli.new a = .ok d) (ha : a.Is p) :
    d.median.Is (if |p - 1 / 2| < 1 / 10 ^ 7 then 1 / 2 else if p < 1 / 2 then 0 else 1) := by
  obtain ⟨_, rfl⟩ := Bernoulli.new_ok.1 h
  have hab : (a - F64.fin (1 / 2)).abs.Is |p - 1 / 2| := (ha.sub (Is.fin _)).abs
  have hlt := hab.lt_iff (Is.lit (1 / 10 ^ 7))
  have hlt2 := ha.lt_iff (Is.fin (1 / 2))
  unfold Bernoulli.median
  simp only [hlt, hlt2]
  split_ifs
  · exact Is.fin _
  · exact Is.zero
  · exact Is.one

/-- C119 (violated in a band): the returned median is a median of the law exactly when p = 1/2 or p is at least 1e-7
away from 1/2. -/
theorem C119_bernoulli_median_violated (h : Bernoulli.new a = .ok d) (ha : a.Is p) :
    ∃ m, d.median.Is m ∧ (IsMedianD (bernPMF p) boolVal m ↔ p = 1 / 2 ∨ 1 / 10 ^ 7 ≤ |p - 1 / 2|) := by
  classical
  refine ⟨_, Bernoulli.median_cases h ha, ?_⟩
  rw [bern_median]
  split_ifs with h1 h2
  · have : ¬ (1:ℝ) ≤ 1 / 2 := by norm_num
    simp only [Set.indicator, Set.mem_ofPred_eq, boolVal, bernPMF]
    norm_num
    constructor
    · rintro ⟨h3, h4⟩; left; linarith
    · rintro (rfl | h3)
      · norm_num
      · norm_num at h1; exact absurd h1 (not_lt.2 h3)
  · simp only [Set.indicator, Set.mem_ofPred_eq, boolVal, bernPMF]
    norm_num
    constructor
    · intro _; right; norm_num at h1; exact h1
    · intro _; linarith
  · simp only [Set.indicator, Set.mem_ofPred_eq, boolVal, bernPMF]
    norm_num
    constructor
    · intro _; right; norm_num at h1; exact h1
    · intro _; linarith

/-- C119 (what holds): away from the 1e-7 band around 1/2, and at 1/2, the median is a median. -/
theorem C119_bernoulli_median_partial (h : Bernoulli.new a = .ok d) (ha : a.Is p)
    (hp : p = 1 / 2 ∨ 1 / 10 ^ 7 ≤ |p - 1 / 2|) : ∃ m, d.median.Is m ∧ IsMedianD (bernPMF p) boolVal m := by
  obtain ⟨m, hm, hi⟩ := C119_bernoulli_median_violated h ha
  exact ⟨m, hm, hi.2 hp⟩

/-- C119 (violated): the modes returned are the most likely values exactly when p ≤ 1/2; for every p > 1/2 the code
answers `[false]`, the *least* likely value. It never panics. -/
theorem C119_bernoulli_modes_violated (h : Bernoulli.new a = .ok d) (ha : a.Is p) :
    ∃ ms, d.modes = .ok ms ∧ ((∀ b, b ∈ ms ↔ IsModeD (bernPMF p) b) ↔ p ≤ 1 / 2) := by
  obtain ⟨_, rfl⟩ := Bernoulli.new_ok.1 h
  have hq : (1 - a).Is (1 - p) := by fev
  have hm : ∀ b, IsModeD (bernPMF p) b ↔ bernPMF p (!b) ≤ bernPMF p b := by
    intro b; unfold IsModeD; rw [Bool.forall_bool]; cases b <;> simp
  simp only [hm]
  unfold Bernoulli.modes F64.partialCmp
  simp only [ha.lt_iff hq, ha.feq_iff hq, hq.lt_iff ha]
  by_cases h1 : p < 1 - p
  · refine ⟨[false], by simp only [h1, if_true], ?_⟩
    simp [bernPMF]
    constructor
    · intro _; linarith
    · intro _; constructor <;> linarith
  by_cases h2 : p = 1 - p
  · refine ⟨[false, true], by simp only [← h2, lt_irrefl, if_false, if_true], ?_⟩
    simp [bernPMF]
    constructor
    · intro _; linarith
    · intro _; constructor <;> linarith
  · have h3 : 1 - p < p := lt_of_le_of_ne (not_lt.1 h1) (Ne.symm h2)
    refine ⟨[false], by simp only [h1, h2, h3, if_false, if_true], ?_⟩
    simp [bernPMF]
    constructor
    · intro h4; linarith
    · intro h4; linarith

/-- C119 (what holds): for p ≤ 1/2 `modes()` lists exactly the most likely values. -/
theorem C119_bernoulli_modes_partial (h : Bernoulli.new a = .ok d) (ha : a.Is p) (hp : p ≤ 1 / 2) :
    ∃ ms, d.modes = .ok ms ∧ ∀ b, b ∈ ms ↔ IsModeD (bernPMF p) b := by
  obtain ⟨ms, hm, hi⟩ := C119_bernoulli_modes_violated h ha
  exact ⟨ms, hm, hi.2 hp⟩

theorem bern_entropy : HasEntropyD (bernPMF p) (-(1 - p) * Real.log (1 - p) - p * Real.log p) :=
  hasSum_congr2 (hasSum_bool _) (fun _ => rfl) (by simp [bernPMF]; ring)

open Classical in
theorem Bernoulli.entropy_is (h : Bernoulli.new a = .ok d) (ha : a.Is p) :
    d.shannonEntropy.Is (if 1 - p < 1 / 10 ^ 7 ∨ p < 1 / 10 ^ 7 then 0
      else -(1 - p) * Real.log (1 - p) - p * Real.log p) := by
  obtain ⟨hp0, hp1⟩ := Bernoulli.range h ha
  obtain ⟨_, rfl⟩ := Bernoulli.new_ok.1 h
  have hq : (1 - a).Is (1 - p) := by fev
  have e1 := hq.abs.lt_iff (Is.lit (1 / 10 ^ 7))
  have e2 := (hq.sub Is.one).abs.lt_iff (Is.lit (1 / 10 ^ 7))
  rw [abs_of_nonneg (by linarith)] at e1
  rw [show 1 - p - 1 = -p by ring, abs_neg, abs_of_nonneg hp0] at e2
  unfold Bernoulli.shannonEntropy
  simp only [e1, e2]
  split_ifs with hc
  · exact Is.zero
  · push Not at hc
    have h1 : 0 < 1 - p := by linarith [hc.1, show (0:ℝ) < 1 / 10 ^ 7 by norm_num]
    have h2 : 0 < p := by linarith [hc.2, show (0:ℝ) < 1 / 10 ^ 7 by norm_num]
    exact (hq.neg.mul (hq.ln h1)).sub (ha.mul (ha.ln h2))

theorem bern_entropy_pos (h0 : 0 < p) (h1 : p < 1) : 0 < -(1 - p) * Real.log (1 - p) - p * Real.log p := by
  have a1 : Real.log p < 0 := Real.log_neg h0 h1
  have a2 : Real.log (1 - p) < 0 := Real.log_neg (by linarith) (by linarith)
  nlinarith

/-- C119: the entropy returned is the Shannon entropy in nats exactly when p is 0, 1, or at least 1e-7 away from both
(violated in the open bands, where 0 is returned for a positive entropy). -/
theorem C119_bernoulli_entropy_violated (h : Bernoulli.new a = .ok d) (ha : a.Is p) :
    (∃ e, d.shannonEntropy.Is e ∧ HasEntropyD (bernPMF p) e) ↔
      p = 0 ∨ p = 1 ∨ (1 / 10 ^ 7 ≤ p ∧ 1 / 10 ^ 7 ≤ 1 - p) := by
  classical
  obtain ⟨hp0, hp1⟩ := Bernoulli.range h ha
  have he := Bernoulli.entropy_is h ha
  constructor
  · rintro ⟨e, h1, h2⟩
    rw [h2.unique bern_entropy] at h1
    have h3 := h1.eq he
    by_contra hc
    push Not at hc
    obtain ⟨c1, c2, c3⟩ := hc
    have hpos := bern_entropy_pos (lt_of_le_of_ne hp0 (Ne.symm c1)) (lt_of_le_of_ne hp1 c2)
    rw [if_pos] at h3
    · linarith
    · by_contra hc; push Not at hc; linarith [c3 hc.2, hc.1]
  · rintro (rfl | rfl | ⟨h1, h2⟩)
    · rw [if_pos (Or.inr (by norm_num))] at he
      exact ⟨0, he, by simpa using bern_entropy (p := 0)⟩
    · rw [if_pos (Or.inl (by norm_num))] at he
      exact ⟨0, he, by simpa using bern_entropy (p := 1)⟩
    · rw [if_neg (by push Not; exact ⟨h2, h1⟩)] at he
      exact ⟨_, he, bern_entropy⟩

/-- C120: Fisher information and log-likelihood are right (for p in (0,1)); the log-likelihood is additive. -/
theorem C120_bernoulli_likelihood (h : Bernoulli.new a = .ok d) (ha : a.Is p) (h0 : 0 < p) (h1 : p < 1) :
    d.fisherInformation.Is (fisherD bernPMF p) ∧
    (∀ xs, (d.logLikelihood xs).Is (logLik (bernPMF p) xs)) ∧
    (∀ xs ys, logLik (bernPMF p) (xs ++ ys) = logLik (bernPMF p) xs + logLik (bernPMF p) ys) := by
  refine ⟨?_, fun xs => ?_, fun xs ys => by simp [logLik]⟩
  · rw [bern_fisher h0 h1]
    exact Is.one.div (Bernoulli.variance_is h ha) (mul_pos h0 (by linarith)).ne'
  · unfold Bernoulli.logLikelihood logLik
    refine Is.sum_map _ _ _ fun b _ => ?_
    refine (Bernoulli.pmf_is h ha b).ln ?_
    cases b <;> simp [bernPMF] <;> linarith

theorem bern_logLik_deriv (h0 : 0 < p) (h1 : p < 1) (xs : List Bool) :
    HasDerivAt (fun t => logLik (bernPMF t) xs) ((xs.count true : ℝ) / p - (xs.count false : ℝ) / (1 - p)) p := by
  induction xs with
  | nil => simpa [logLik] using hasDerivAt_const p (0:ℝ)
  | cons b xs ih =>
    have hq : (1 - p) ≠ 0 := by linarith
    have hb : HasDerivAt (fun t => Real.log (bernPMF t b)) (match b with | true => 1 / p | false => -1 / (1 - p)) p := by
      cases b
      · exact (((hasDerivAt_id p).const_sub 1).log hq)
      · exact (hasDerivAt_id p).log h0.ne'
    refine HasDerivAt.congr_deriv (f := fun t => logLik (bernPMF t) (b :: xs)) (hb.add ih) ?_
    cases b
    · simp [List.count_cons_of_ne]; ring
    · simp [List.count_cons_of_ne]; ring

theorem Bernoulli.score_is (h : Bernoulli.new a = .ok d) (ha : a.Is p) (h0 : 0 < p) (h1 : p < 1) (xs : List Bool) :
    (d.score xs).Is ((xs.count true : ℝ) / p + (xs.count false : ℝ) / (1 - p)) := by
  unfold Bernoulli.score
  refine Is.congr (Is.sum_map xs _ (fun b => 1 / bernPMF p b) fun b _ => ?_) ?_
  · refine Is.one.div (Bernoulli.pmf_is h ha b) ?_
    cases b
    · exact (sub_pos.2 h1).ne'
    · exact h0.ne'
  · induction xs with
    | nil => simp
    | cons b xs ih =>
      rw [List.map_cons, List.sum_cons, ih]
      cases b
      · simp [bernPMF, List.count_cons_of_ne]; ring
      · simp [bernPMF, List.count_cons_of_ne]; ring

/-- C120 (violated): the score is the derivative of the log-likelihood only for samples without a `false`. -/
theorem C120_bernoulli_score_violated (h : Bernoulli.new a = .ok d) (ha : a.Is p) (h0 : 0 < p) (h1 : p < 1)
    (xs : List Bool) : (d.score xs).Is (deriv (fun t => logLik (bernPMF t) xs) p) ↔ false ∉ xs := by
  rw [(bern_logLik_deriv h0 h1 xs).deriv]
  have hs := Bernoulli.score_is h ha h0 h1 xs
  have hq : 0 < 1 - p := by linarith
  constructor
  · intro hc hm
    have := hc.eq hs
    have h2 : (0:ℝ) < xs.count false := by exact_mod_cast List.count_pos_iff.2 hm
    have : 0 < (xs.count false : ℝ) / (1 - p) := by positivity
    linarith
  · intro hm
    refine hs.congr ?_
    rw [List.count_eq_zero_of_not_mem hm]; simp

/-- C120 (what holds): the score of an all-`true` sample. -/
theorem C120_bernoulli_score_partial (h : Bernoulli.new a = .ok d) (ha : a.Is p) (h0 : 0 < p) (h1 : p < 1)
    (xs : List Bool) (hx : ∀ x ∈ xs, x = true) : (d.score xs).Is (deriv (fun t => logLik (bernPMF t) xs) p) :=
  (C120_bernoulli_score_violated h ha h0 h1 xs).2 fun hm => by simpa using hx _ hm
end

section
attribute [local instance] exactFP exactFP_exact
theorem bern_example : ∃ d, Bernoulli.new (fin (1 / 4)) = .ok d :=
  ⟨_, Bernoulli.new_ok.2 ⟨⟨(Is.zero.le_iff (Is.fin _)).2 (by norm_num), ((Is.fin _).le_iff Is.one).2 (by norm_num)⟩, rfl⟩⟩
example : ∃ d, Bernoulli.new (fin (1 / 4)) = .ok d ∧ d.variance.Is (3 / 16) := by
  obtain ⟨d, hd⟩ := bern_example
  exact ⟨d, hd, (Bernoulli.variance_is hd (Is.fin _)).congr (by norm_num)⟩
example : ∃ d q, Bernoulli.fitMle [true, false, true] = .ok d ∧ d.p.val.Is q ∧ q = 2 / 3 := by
  obtain ⟨d, q, h1, h2, h3, _⟩ := (C85_bernoulli_mle [true, false, true]).1 (by simp)
  exact ⟨d, q, h1, h2, by rw [h3]; norm_num⟩
end
end Rstat
