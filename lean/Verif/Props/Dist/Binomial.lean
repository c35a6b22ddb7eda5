import Verif.Props.Dist.Bernoulli
import Verif.Props.Utils
import Mathlib.Analysis.Complex.ExponentialBounds
import Mathlib.Analysis.Real.Pi.Bounds

/-! Properties C87–C89, C121, C122: the binomial law and convolutions of Bernoulli/binomial variables. -/
set_option linter.unusedSectionVars false
namespace Rstat
open F64 Consts Spec

theorem Binomial.new_ok [FP] {n : ℕ} {P : Probability} {d : Binomial} :
    Binomial.new n P = .ok d ↔ (0 ≤ P.val ∧ P.val ≤ 1) ∧ d = ⟨n, P, P.not⟩ := by
  simp only [Binomial.new, exc_bind_ok, Probability.newE_ok, Count.newU_ok]
  constructor
  · rintro ⟨_, rfl, _, ⟨h0, rfl⟩, h⟩; exact ⟨h0, by cases h; rfl⟩
  · rintro ⟨h0, rfl⟩; exact ⟨_, rfl, _, ⟨h0, rfl⟩, rfl⟩

theorem i32wrap_small {n : ℤ} (h0 : 0 ≤ n) (h : n < 2 ^ 31) : i32wrap n = n := by
  unfold i32wrap; omega

theorem bernNat_eq (p : ℝ) : bernNatPMF p = binPMF 1 p := by
  ext k
  rcases k with _ | _ | k
  · simp [bernNatPMF, binPMF]
  · simp [bernNatPMF, binPMF]
  · rw [binPMF_zero (by omega)]; rfl

theorem assertEqP_spec {P Q : Probability} {p q : ℝ} (hp : P.val.Is p) (hq : Q.val.Is q) :
    (p = q → assertEqP P Q = .ok P) ∧ (p ≠ q → ∃ e, assertEqP P Q = .error e) := by
  have hs : (Cst.equal (s := .f64) Q.val).sat P.val = decide (p = q) := by
    simp only [Cst.sat, Sc.eq]
    exact decide_eq_decide.2 (hp.feq_iff hq)
  constructor
  · intro h
    have := (Cst.check_spec (Cst.equal (s := .f64) Q.val) P.val).1 (by rw [hs]; simpa using h)
    unfold assertEqP; rw [this]
  · intro h
    obtain ⟨c, hc, _⟩ := (Cst.check_spec (Cst.equal (s := .f64) Q.val) P.val).2 (by rw [hs]; simpa using h)
    unfold assertEqP; rw [hc]; exact ⟨_, rfl⟩

section
variable [FP] [FP.Exact] {n : ℕ} {P : Probability} {p : ℝ} {d : Binomial}

theorem Binomial.range (h : Binomial.new n P = .ok d) (hp : P.val.Is p) : 0 ≤ p ∧ p ≤ 1 := by
  obtain ⟨h0, rfl⟩ := Binomial.new_ok.1 h
  exact ⟨(Is.zero.le_iff hp).1 h0.1, (hp.le_iff Is.one).1 h0.2⟩

theorem not_is {P : Probability} {p : ℝ} (hp : P.val.Is p) : P.not.val.Is (1 - p) := by
  unfold Probability.not Probability.newUnchecked; exact Is.one.sub hp

/-- C88: `pmf(k) = C(n,k) p^k (1-p)^(n-k)` for every `k ≤ n` such that the intermediate products of `choose` fit in u64
and the exponents fit in i32 (both builds); it is a mass function with mean np, variance np(1-p) and the binomial
skewness. -/
theorem C88_binomial (h : Binomial.new n P = .ok d) (hp : P.val.Is p) :
    (0 ≤ p ∧ p ≤ 1) ∧
    (∀ pr k, k ≤ n → n < 2 ^ 64 → k < 2 ^ 31 → n - k < 2 ^ 31 →
      (∀ i < min k (n - k), n.choose i * (n - i) < 2 ^ 64) → ∃ r, d.pmf pr k = .ok r ∧ r.val.Is (binPMF n p k)) ∧
    IsPMF (binPMF n p) ∧
    (∃ m v, d.mean.Is m ∧ d.variance.Is v ∧ HasMeanVarD (binPMF n p) (fun k => (k : ℝ)) m v) ∧
    (0 < n → 0 < p → p < 1 → ∃ s, d.skewness.Is s ∧ HasSkewD (binPMF n p) (fun k => (k : ℝ)) s) ∧
    (0 < p → p < 1 → d.fisherInformation.Is (fisherD (binPMF n) p)) := by
  obtain ⟨hp0, hp1⟩ := Binomial.range h hp
  obtain ⟨_, rfl⟩ := Binomial.new_ok.1 h
  have hq := not_is hp
  have hvar : (Binomial.variance ⟨n, P, P.not⟩).Is (p * (1 - p) * n) := (hp.mul hq).mul (Is.ofNat n)
  refine ⟨⟨hp0, hp1⟩, fun pr k hk hn h1 h2 hfit => ?_, bin_pmf hp0 hp1 n, ⟨_, _, ?_, ?_, bin_meanVar n⟩,
    fun hn h0 h1 => ⟨_, ?_, bin_skew hn h0 h1⟩, fun h0 h1 => ?_⟩
  · unfold Binomial.pmf
    rw [choose_eq_core pr n k hn hk hfit, usub_ok hk]
    refine ⟨_, rfl, ?_⟩
    unfold Probability.newUnchecked Probability.powi
    dsimp only
    rw [i32wrap_small (by omega) (by omega), i32wrap_small (by omega) (by omega)]
    refine Is.congr ((Is.ofNat _).mul ((hp.powi k).mul (hq.powi (n - k)))) ?_
    unfold binPMF; ring
  · exact Is.congr (hp.mul (Is.ofNat n)) (by ring)
  · exact hvar.congr (by ring)
  · have hn' : (0:ℝ) < n := by exact_mod_cast hn
    have hvp : 0 < p * (1 - p) * n := mul_pos (mul_pos h0 (by linarith)) hn'
    have := Real.sqrt_pos.2 hvp
    unfold Binomial.skewness
    refine Is.congr ((Is.one.sub (hp.mul (Is.num 2))).div (hvar.sqrt hvp.le) this.ne') ?_
    rw [show (n:ℝ) * p * (1 - p) = p * (1 - p) * n by ring, mul_comm p]
  · rw [bin_fisher h0 h1]
    have hq1 : (1 - p) ≠ 0 := by linarith
    unfold Binomial.fisherInformation
    exact Is.congr (((Is.ofNat n).div hp h0.ne').div hq hq1) (by field_simp)

/-- C88: for `n ≤ 62` there are no side conditions. -/
theorem C88_binomial_62 (h : Binomial.new n P = .ok d) (hp : P.val.Is p) (hn : n ≤ 62) (pr : Profile) (k : ℕ)
    (hk : k ≤ n) : ∃ r, d.pmf pr k = .ok r ∧ r.val.Is (binPMF n p k) :=
  (C88_binomial h hp).2.1 pr k hk (by omega) (by omega) (by omega) (fun i _ => choose_fit_62 n hn i)

/-- C88 (violated outside those conditions): above `n` a debug build panics (the mass is 0); for 2^31 ≤ n < 2^32 the cast
of the exponent wraps, and `pmf(0)` is greater than 1 for every p in (0,1). -/
theorem C88_binomial_pmf_violated (h : Binomial.new n P = .ok d) (hp : P.val.Is p) :
    (∀ k, n < k → d.pmf .debug k = .error .overflow) ∧
    (2 ^ 31 ≤ n → n < 2 ^ 32 → 0 < p → p < 1 → ∀ pr, ∃ r, d.pmf pr 0 = .ok r ∧ 1 < r.val ∧ ¬ r.isValid) := by
  obtain ⟨_, rfl⟩ := Binomial.new_ok.1 h
  have hq := not_is hp
  refine ⟨fun k hk => ?_, fun h1 h2 h3 h4 pr => ?_⟩
  · unfold Binomial.pmf; rw [C28_choose_panics n k hk]; rfl
  · unfold Binomial.pmf
    rw [choose_eq_core pr n 0 (by unfold U64; omega) (by omega) (by simp), usub_ok (Nat.zero_le n)]
    have hw : i32wrap ((n - 0 : ℕ) : ℤ) = -((2 ^ 32 - n : ℕ) : ℤ) := by unfold i32wrap; omega
    have hq1 : 0 < 1 - p := by linarith
    have hr : (F64.ofNat (n.choose 0) * (P.powi (i32wrap ((0 : ℕ) : ℤ)) * P.not.powi (i32wrap ((n - 0 : ℕ) : ℤ)))).Is
        (1 / (1 - p) ^ (2 ^ 32 - n)) := by
      unfold Probability.powi
      rw [hw, i32wrap_small (by simp) (by norm_num)]
      refine Is.congr ((Is.ofNat _).mul ((hp.powi 0).mul (hq.powi_neg hq1.ne' _ (by omega)))) ?_
      simp
    have hbig : 1 < 1 / (1 - p) ^ (2 ^ 32 - n) := by
      rw [one_lt_div (by positivity)]
      exact pow_lt_one₀ hq1.le (by linarith) (by omega)
    refine ⟨_, rfl, (Is.one.lt_iff hr).2 hbig, fun hv => ?_⟩
    have := (hr.le_iff Is.one).1 hv.1
    linarith

/-- C88 (violated): the u64 products inside `choose` overflow for moderate `n`: a debug build panics at n = 100, k = 50,
for every p. -/
theorem C88_binomial_overflow_violated (h : Binomial.new 100 P = .ok d) : d.pmf .debug 50 = .error .overflow := by
  obtain ⟨_, rfl⟩ := Binomial.new_ok.1 h
  have hc : choose .debug 100 50 = .error .overflow := by decide +kernel
  unfold Binomial.pmf; rw [hc]; rfl

/-! ### C87 -/

/-- C87: Bernoulli + Bernoulli with equal p is Binomial(2,p), the law of the sum; different p is refused. -/
theorem C87_bernoulli_convolve {a b : F64} {p q : ℝ} {d e : Bernoulli} (h1 : Bernoulli.new a = .ok d) (ha : a.Is p)
    (h2 : Bernoulli.new b = .ok e) (hb : b.Is q) :
    (p = q → ∃ B, d.convolve e = .ok B ∧ Binomial.new 2 ⟨a⟩ = .ok B ∧
      (∀ pr k, k ≤ 2 → ∃ r, B.pmf pr k = .ok r ∧ r.val.Is (convPMF (bernNatPMF p) (bernNatPMF q) k))) ∧
    (p ≠ q → ∃ er, d.convolve e = .error er) := by
  obtain ⟨h0, rfl⟩ := Bernoulli.new_ok.1 h1
  obtain ⟨_, rfl⟩ := Bernoulli.new_ok.1 h2
  have hs := assertEqP_spec (P := ⟨a⟩) (Q := ⟨b⟩) ha hb
  refine ⟨fun hpq => ?_, fun hpq => ?_⟩
  · have hB : Binomial.new 2 ⟨a⟩ = .ok (Binomial.newUnchecked 2 ⟨a⟩) := Binomial.new_ok.2 ⟨h0, rfl⟩
    refine ⟨_, ?_, hB, fun pr k hk => ?_⟩
    · unfold Bernoulli.convolve; simp only [hs.1 hpq]
    · rw [← hpq, bernNat_eq, bin_conv]
      exact C88_binomial_62 hB ha (by norm_num) pr k hk
  · obtain ⟨er, he⟩ := hs.2 hpq
    exact ⟨er, by unfold Bernoulli.convolve; simp only [he]⟩

/-- C87: Binomial + Bernoulli -/
theorem C87_binomial_convolve_bernoulli {b : F64} {q : ℝ} {e : Bernoulli} (h1 : Binomial.new n P = .ok d)
    (hp : P.val.Is p) (h2 : Bernoulli.new b = .ok e) (hb : b.Is q) (pr : Profile) (hn : n + 1 < 2 ^ 64) :
    (p = q → ∃ B, d.convolveBernoulli pr e = .ok (.ok B) ∧ Binomial.new (n + 1) P = .ok B ∧
      convPMF (binPMF n p) (bernNatPMF q) = binPMF (n + 1) p ∧
      (n + 1 ≤ 62 → ∀ pr k, k ≤ n + 1 → ∃ r, B.pmf pr k = .ok r ∧ r.val.Is (convPMF (binPMF n p) (bernNatPMF q) k))) ∧
    (p ≠ q → ∃ er, d.convolveBernoulli pr e = .ok (.error er)) := by
  obtain ⟨h0, rfl⟩ := Binomial.new_ok.1 h1
  obtain ⟨_, rfl⟩ := Bernoulli.new_ok.1 h2
  have hs := assertEqP_spec (P := P) (Q := ⟨b⟩) hp hb
  have hu : uadd pr n 1 = .ok (n + 1) := uadd_ok (by unfold U64; omega)
  refine ⟨fun hpq => ?_, fun hpq => ?_⟩
  · have hB : Binomial.new (n + 1) P = .ok ⟨n + 1, P, P.not⟩ := Binomial.new_ok.2 ⟨h0, rfl⟩
    have hc : convPMF (binPMF n p) (bernNatPMF q) = binPMF (n + 1) p := by rw [← hpq, bernNat_eq, bin_conv]
    refine ⟨_, ?_, hB, hc, fun hn pr k hk => ?_⟩
    · unfold Binomial.convolveBernoulli
      simp only [hu, hs.1 hpq]
      show Except.ok (Binomial.new (n + 1) P) = _
      rw [hB]
    · rw [hc]; exact C88_binomial_62 hB hp hn pr k hk
  · obtain ⟨er, he⟩ := hs.2 hpq
    exact ⟨er, by unfold Binomial.convolveBernoulli; simp only [hu, he]; rfl⟩

/-- C87: Binomial + Binomial -/
theorem C87_binomial_convolve {m : ℕ} {Q : Probability} {q : ℝ} {e : Binomial} (h1 : Binomial.new n P = .ok d)
    (hp : P.val.Is p) (h2 : Binomial.new m Q = .ok e) (hq : Q.val.Is q) (pr : Profile) (hn : n + m < 2 ^ 64) :
    (p = q → ∃ B, d.convolve pr e = .ok (.ok B) ∧ Binomial.new (n + m) P = .ok B ∧
      convPMF (binPMF n p) (binPMF m q) = binPMF (n + m) p ∧
      (n + m ≤ 62 → ∀ pr k, k ≤ n + m → ∃ r, B.pmf pr k = .ok r ∧ r.val.Is (convPMF (binPMF n p) (binPMF m q) k))) ∧
    (p ≠ q → ∃ er, d.convolve pr e = .ok (.error er)) := by
  obtain ⟨h0, rfl⟩ := Binomial.new_ok.1 h1
  obtain ⟨_, rfl⟩ := Binomial.new_ok.1 h2
  have hs := assertEqP_spec (P := P) (Q := Q) hp hq
  have hu : uadd pr n m = .ok (n + m) := uadd_ok (by unfold U64; omega)
  refine ⟨fun hpq => ?_, fun hpq => ?_⟩
  · have hB : Binomial.new (n + m) P = .ok ⟨n + m, P, P.not⟩ := Binomial.new_ok.2 ⟨h0, rfl⟩
    have hc : convPMF (binPMF n p) (binPMF m q) = binPMF (n + m) p := by rw [← hpq, bin_conv]
    refine ⟨_, ?_, hB, hc, fun hn pr k hk => ?_⟩
    · unfold Binomial.convolve
      simp only [hs.1 hpq, hu]
      show Except.ok (Binomial.new (n + m) P) = _
      rw [hB]
    · rw [hc]; exact C88_binomial_62 hB hp hn pr k hk
  · obtain ⟨er, he⟩ := hs.2 hpq
    exact ⟨er, by unfold Binomial.convolve; simp only [he]⟩

/-! ### C89 -/

/-- C89 (violated): the reported support is `[0, n+1]` for every `n` that fits, although `n+1` has mass 0; `kurtosis()`
is the *excess* kurtosis, and `excess_kurtosis()` is 3 below that. -/
theorem C89_binomial_violated (h : Binomial.new n P = .ok d) (hp : P.val.Is p) :
    (∀ pr, n + 1 < 2 ^ 64 → d.support pr = .ok (0, n + 1) ∧ binPMF n p (n + 1) = 0) ∧
    (0 < n → 0 < p → p < 1 → ∃ κ, HasKurtD (binPMF n p) (fun k => (k : ℝ)) κ ∧ d.kurtosis.Is (κ - 3) ∧
      d.excessKurtosis.Is (κ - 6) ∧ ¬ d.kurtosis.Is κ ∧ ¬ d.excessKurtosis.Is (κ - 3)) := by
  obtain ⟨_, rfl⟩ := Binomial.new_ok.1 h
  have hq := not_is hp
  refine ⟨fun pr hn => ⟨?_, binPMF_zero (by omega)⟩, fun hn h0 h1 => ?_⟩
  · unfold Binomial.support
    rw [show (Binomial.mk n P P.not).n = n from rfl, uadd_ok (show n + 1 < U64 by unfold U64; omega)]; rfl
  · have hn' : (0:ℝ) < n := by exact_mod_cast hn
    have hq1 : 0 < 1 - p := by linarith
    have hk : (Binomial.kurtosis ⟨n, P, P.not⟩).Is (3 + (1 - 6 * p * (1 - p)) / (n * p * (1 - p)) - 3) := by
      unfold Binomial.kurtosis
      refine Is.congr ((Is.one.sub (((Is.num 6).mul hp).mul hq)).div (((Is.ofNat n).mul hp).mul hq) (by positivity)) ?_
      ring_nf
    have he : (Binomial.excessKurtosis ⟨n, P, P.not⟩).Is (3 + (1 - 6 * p * (1 - p)) / (n * p * (1 - p)) - 6) := by
      unfold Binomial.excessKurtosis
      exact Is.congr (hk.sub (Is.num 3)) (by norm_num; ring)
    refine ⟨_, bin_kurt hn h0 h1, hk, he, fun hc => ?_, fun hc => ?_⟩
    · have := hc.eq hk; linarith
    · have := hc.eq he; linarith

/-- C89 (what holds): every `k` with positive mass is in the reported support. -/
theorem C89_binomial_support_partial (h : Binomial.new n P = .ok d) (hp : P.val.Is p) (pr : Profile)
    (hn : n + 1 < 2 ^ 64) : ∃ lo hi, d.support pr = .ok (lo, hi) ∧ ∀ k, 0 < binPMF n p k → lo ≤ k ∧ k ≤ hi := by
  refine ⟨0, n + 1, ((C89_binomial_violated h hp).1 pr hn).1, fun k hk => ⟨Nat.zero_le _, ?_⟩⟩
  by_contra hc
  rw [binPMF_zero (by omega)] at hk
  exact lt_irrefl _ hk

/-! ### C121 -/

/-- C121 (for k < n; at k = n the incomplete beta is called outside its domain, above it the subtraction panics): `cdf(k)`
is the sum of the masses up to `k`. -/
theorem C121_binomial_cdf_partial (h : Binomial.new n P = .ok d) (hp : P.val.Is p) (pr : Profile) (k : ℕ) (hk : k < n)
    (hn : n < 2 ^ 64) : ∃ r, d.cdf pr k = .ok r ∧ r.val.Is (∑ j ∈ Finset.range (k + 1), binPMF n p j) ∧ r.isValid := by
  obtain ⟨hp0, hp1⟩ := Binomial.range h hp
  obtain ⟨_, rfl⟩ := Binomial.new_ok.1 h
  have hq := not_is hp
  have hkn : (k : ℝ) < n := by exact_mod_cast hk
  have hr : (P.not.val.betainc (F64.ofNat (n - k)) (F64.ofNat (k + 1))).Is (∑ j ∈ Finset.range (k + 1), binPMF n p j) := by
    have h1 := Is.betainc hq (Is.ofNat (n - k)) (Is.ofNat (k + 1)) (by linarith) (by linarith)
      (by rw [Nat.cast_sub hk.le]; linarith) (by positivity)
    refine h1.congr ?_
    rw [Nat.cast_sub hk.le]; push_cast
    rw [bin_cdf_betaI n k hk, sub_sub_cancel]
  refine ⟨_, ?_, hr, ?_⟩
  · unfold Binomial.cdf
    rw [show (Binomial.mk n P P.not).n = n from rfl, usub_ok hk.le, uadd_ok (show k + 1 < U64 by unfold U64; omega)]
    rfl
  · refine ⟨(hr.le_iff Is.one).2 ?_, (Is.zero.le_iff hr).2 (Finset.sum_nonneg fun j _ => bin_nonneg hp0 hp1 n j)⟩
    rw [← bin_total (p := p) n]
    exact Finset.sum_le_sum_of_subset_of_nonneg (Finset.range_mono (by omega)) fun j _ _ => bin_nonneg hp0 hp1 n j

/-- C121 (violated): P(X ≤ k) = 1 for k > n, but a debug build panics for every such k. -/
theorem C121_binomial_cdf_violated (h : Binomial.new n P = .ok d) (k : ℕ) (hk : n < k) :
    d.cdf .debug k = .error .overflow ∧ ∑ j ∈ Finset.range (k + 1), binPMF n p j = 1 := by
  obtain ⟨_, rfl⟩ := Binomial.new_ok.1 h
  constructor
  · unfold Binomial.cdf usub
    simp only [show ¬ k ≤ n by omega, if_false]; rfl
  · rw [← bin_total (p := p) n]
    exact (Finset.sum_subset (Finset.range_mono (by omega)) fun j _ hj =>
      binPMF_zero (by simpa [Nat.lt_succ_iff] using hj)).symm

/-! ### C122 -/

theorem Binomial.modes_is (h : Binomial.new n P = .ok d) (hp : P.val.Is p) (hn : n < 2 ^ 64) :
    d.modes = [⌊(n : ℝ) * p⌋₊] := by
  obtain ⟨hp0, hp1⟩ := Binomial.range h hp
  obtain ⟨_, rfl⟩ := Binomial.new_ok.1 h
  have hm : (P.val * F64.ofNat n).floor.Is (⌊p * n⌋ : ℝ) := (hp.mul (Is.ofNat n)).floor
  have h0 : (0:ℝ) ≤ ⌊p * n⌋ := by exact_mod_cast Int.floor_nonneg.2 (by positivity)
  have hle : ⌊p * (n : ℝ)⌋₊ ≤ n := by
    have : p * (n:ℝ) ≤ n := mul_le_of_le_one_left (by positivity) hp1
    calc ⌊p * (n : ℝ)⌋₊ ≤ ⌊(n : ℝ)⌋₊ := Nat.floor_le_floor this
      _ = n := Nat.floor_natCast n
  unfold Binomial.modes
  rw [mul_comm (n:ℝ) p]
  congr 1
  rcases hm with he | ⟨he, hz⟩
  · rw [show (Binomial.mk n P P.not).p = P from rfl, show (Binomial.mk n P P.not).n = n from rfl, he]
    unfold F64.toU64
    have hc : ¬ ((⌊p * (n:ℝ)⌋ : ℝ) < 0) := not_lt.2 h0
    simp only [hc, if_false]
    rw [← Int.floor_toNat, Int.floor_intCast, Int.floor_toNat]
    exact min_eq_left (by unfold U64; omega)
  · rw [show (Binomial.mk n P P.not).p = P from rfl, show (Binomial.mk n P P.not).n = n from rfl, he]
    unfold F64.toU64
    rw [← Int.floor_toNat]
    have : ⌊p * (n:ℝ)⌋ = 0 := by exact_mod_cast hz
    rw [this]; rfl

/-- C122 (violated): `modes()` is `[floor(np)]`, which is a most likely value exactly when `(n+1)p ≤ floor(np) + 1`. -/
theorem C122_binomial_modes_violated (h : Binomial.new n P = .ok d) (hp : P.val.Is p) (hn : n < 2 ^ 64) (h0 : 0 < p)
    (h1 : p < 1) : ∃ m, d.modes = [m] ∧ (IsModeD (binPMF n p) m ↔ (n + 1) * p ≤ m + 1) := by
  refine ⟨_, Binomial.modes_is h hp hn, ?_⟩
  have hle : (⌊(n : ℝ) * p⌋₊ : ℝ) ≤ n * p := Nat.floor_le (by positivity)
  have hmn : ⌊(n : ℝ) * p⌋₊ ≤ n := by
    have : (n:ℝ) * p ≤ n := mul_le_of_le_one_right (by positivity) h1.le
    calc _ ≤ ⌊(n : ℝ)⌋₊ := Nat.floor_le_floor this
      _ = n := Nat.floor_natCast n
  rw [bin_mode_iff h0 h1 hmn]
  exact and_iff_right (by linarith)

/-- C122 (what holds): the answer or its successor is a most likely value. -/
theorem C122_binomial_modes_partial (h : Binomial.new n P = .ok d) (hp : P.val.Is p) (hn : n < 2 ^ 64) (h0 : 0 < p)
    (h1 : p < 1) : ∃ m, d.modes = [m] ∧ (IsModeD (binPMF n p) m ∨ IsModeD (binPMF n p) (m + 1)) := by
  obtain ⟨m, hm, hi⟩ := C122_binomial_modes_violated h hp hn h0 h1
  refine ⟨m, hm, ?_⟩
  by_cases hc : (n + 1) * p ≤ m + 1
  · exact Or.inl (hi.2 hc)
  · right
    push Not at hc
    have hmm : m = ⌊(n : ℝ) * p⌋₊ := by simpa [Binomial.modes_is h hp hn, eq_comm] using hm
    have hlt : (n : ℝ) * p < m + 1 := by rw [hmm]; exact Nat.lt_floor_add_one _
    have hmn : m + 1 ≤ n := by
      have : (m : ℝ) < n := by nlinarith
      exact_mod_cast this
    refine (bin_mode_iff h0 h1 hmn).2 ⟨by push_cast; linarith, by push_cast; linarith⟩

/-- C122 (violated): `median()` of Binomial(2, 0.29) is 1, but P(X ≥ 1) < 1/2. -/
theorem C122_binomial_median_violated (h : Binomial.new 2 P = .ok d) (hp : P.val.Is (29 / 100)) :
    d.median.Is 1 ∧ ¬ IsMedianD (binPMF 2 (29 / 100)) (fun k => (k : ℝ)) 1 := by
  obtain ⟨_, rfl⟩ := Binomial.new_ok.1 h
  constructor
  · have hm : (Binomial.mean ⟨2, P, P.not⟩).Is (58 / 100) := Is.congr (hp.mul (Is.ofNat 2)) (by norm_num)
    unfold Binomial.median
    rw [hm.eq_fin (by norm_num)]
    unfold F64.roundHalf
    have hc : (0:ℝ) ≤ 58 / 100 := by norm_num
    simp only [hc, if_true]
    have : ⌊(58:ℝ) / 100 + 1 / 2⌋ = 1 := by rw [Int.floor_eq_iff]; norm_num
    rw [this]
    exact Is.congr (Is.fin _) (by norm_num)
  · rintro ⟨a, b, _, hb, _, h2⟩
    have hs : HasSum (Set.indicator {x : ℕ | (1:ℝ) ≤ x} (binPMF 2 (29 / 100)))
        (∑ k ∈ Finset.range 3, Set.indicator {x : ℕ | (1:ℝ) ≤ x} (binPMF 2 (29 / 100)) k) :=
      hasSum_sum_of_ne_finset_zero fun k hk => by
        have : 2 < k := by simp at hk; omega
        simp only [Set.indicator]; split_ifs
        · exact binPMF_zero this
        · rfl
    rw [hb.unique hs] at h2
    simp only [Finset.sum_range_succ, Finset.range_zero, Finset.sum_empty, Set.indicator, Set.mem_ofPred_eq, binPMF] at h2
    norm_num [Nat.choose] at h2

/-- C122 (what holds): the median returned is an integer within 1/2 of the mean. -/
theorem C122_binomial_median_partial (h : Binomial.new n P = .ok d) (hp : P.val.Is p) :
    ∃ m : ℕ, d.median.Is m ∧ |(m : ℝ) - n * p| ≤ 1 / 2 := by
  obtain ⟨hp0, hp1⟩ := Binomial.range h hp
  obtain ⟨_, rfl⟩ := Binomial.new_ok.1 h
  have hm : (Binomial.mean ⟨n, P, P.not⟩).Is (n * p) := Is.congr (hp.mul (Is.ofNat n)) (by ring)
  have h0 : 0 ≤ (n : ℝ) * p := by positivity
  refine ⟨⌊(n : ℝ) * p + 1 / 2⌋₊, ?_, ?_⟩
  · unfold Binomial.median
    rcases hm with he | ⟨he, hz⟩
    · rw [he]; unfold F64.roundHalf
      simp only [h0, if_true]
      refine Is.congr (Is.fin _) ?_
      rw [← Int.floor_toNat]
      have : 0 ≤ ⌊(n : ℝ) * p + 1 / 2⌋ := Int.floor_nonneg.2 (by positivity)
      exact_mod_cast (Int.toNat_of_nonneg this).symm
    · rw [he]; unfold F64.roundHalf
      refine Is.congr Is.negZero ?_
      rw [hz, zero_add, Nat.floor_eq_zero.2 (by norm_num)]; simp
  · have h1 := Nat.floor_le (show 0 ≤ (n : ℝ) * p + 1 / 2 by positivity)
    have h2 := Nat.lt_floor_add_one ((n : ℝ) * p + 1 / 2)
    rw [abs_le]; constructor <;> linarith

/-- C122 (violated): `shannon_entropy()` of Binomial(1, 1/2) exceeds 1, whereas the entropy is ln 2 nats (1 bit). -/
theorem C122_binomial_entropy_violated (h : Binomial.new 1 P = .ok d) (hp : P.val.Is (1 / 2)) :
    ∃ e, d.shannonEntropy.Is e ∧ 1 < e ∧ HasEntropyD (binPMF 1 (1 / 2)) (Real.log 2) ∧ Real.log 2 < 1 := by
  obtain ⟨_, rfl⟩ := Binomial.new_ok.1 h
  have hq := not_is hp
  have hv : (Binomial.variance ⟨1, P, P.not⟩).Is (1 / 4) :=
    Is.congr ((hp.mul hq).mul (Is.ofNat 1)) (by norm_num)
  have hpi := Real.pi_gt_three
  have he1 := Real.exp_one_gt_d9
  refine ⟨Real.logb 2 (2 * (Real.pi * Real.exp 1) * (1 / 4)) / 2, ?_, ?_, ?_, ?_⟩
  · unfold Binomial.shannonEntropy
    exact ((((Is.num 2).mul PI_E_is).mul hv).log2 (by positivity)).div (Is.num 2) (by norm_num)
  · have h4 : (4:ℝ) < 2 * (Real.pi * Real.exp 1) * (1 / 4) := by nlinarith
    have : Real.logb 2 4 < Real.logb 2 (2 * (Real.pi * Real.exp 1) * (1 / 4)) :=
      Real.logb_lt_logb (by norm_num) (by norm_num) h4
    have h5 : Real.logb 2 4 = 2 := by
      rw [show (4:ℝ) = 2 ^ (2:ℝ) by norm_num]; exact Real.logb_rpow (by norm_num) (by norm_num)
    linarith
  · unfold HasEntropyD
    have hs : HasSum (fun k => -(binPMF 1 (1 / 2) k * Real.log (binPMF 1 (1 / 2) k)))
        (∑ k ∈ Finset.range 2, -(binPMF 1 (1 / 2) k * Real.log (binPMF 1 (1 / 2) k))) :=
      hasSum_sum_of_ne_finset_zero fun k hk => by
        have : 1 < k := by simp at hk; omega
        rw [binPMF_zero this]; simp
    refine hasSum_congr2 hs (fun _ => rfl) ?_
    simp only [Finset.sum_range_succ, Finset.range_zero, Finset.sum_empty, binPMF]
    norm_num [Real.log_inv]
    rw [one_div, Real.log_inv]; ring
  · have := Real.log_two_lt_d9; linarith
end

section
attribute [local instance] exactFP exactFP_exact
theorem bin_example (n : ℕ) {p : ℝ} (h0 : 0 ≤ p) (h1 : p ≤ 1) : ∃ d, Binomial.new n ⟨fin p⟩ = .ok d :=
  ⟨_, Binomial.new_ok.2 ⟨⟨(Is.zero.le_iff (Is.fin _)).2 h0, ((Is.fin _).le_iff Is.one).2 h1⟩, rfl⟩⟩
example : ∃ d r, Binomial.new 3 ⟨fin (1 / 2)⟩ = .ok d ∧ d.pmf .debug 1 = .ok r ∧ r.val.Is (3 / 8) := by
  obtain ⟨d, hd⟩ := bin_example 3 (p := 1 / 2) (by norm_num) (by norm_num)
  obtain ⟨r, h1, h2⟩ := C88_binomial_62 hd (Is.fin _) (by norm_num) .debug 1 (by norm_num)
  exact ⟨d, r, hd, h1, h2.congr (by norm_num [binPMF])⟩
example : ∃ d, Binomial.new 2 ⟨fin (29 / 100)⟩ = .ok d := bin_example 2 (by norm_num) (by norm_num)
end
end Rstat
