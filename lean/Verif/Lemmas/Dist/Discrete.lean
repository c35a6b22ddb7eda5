import Verif.Spec.Discrete
import Verif.Lemmas.Moments
import Mathlib.Data.Nat.Choose.Vandermonde
import Mathlib.Data.Nat.Choose.Sum
import Mathlib.Analysis.SpecificLimits.Normed
import Mathlib.Analysis.SpecialFunctions.Exponential

/-! Facts about the discrete laws. -/
set_option linter.unusedSectionVars false
namespace Rstat.Spec
open Finset

theorem fisherD_eq {α : Type*} {f : ℝ → α → ℝ} {θ s : ℝ} {g : α → ℝ}
    (hd : ∀ a, f θ a = 0 ∨ HasDerivAt (fun t => Real.log (f t a)) (g a) θ)
    (hs : HasSum (fun a => g a ^ 2 * f θ a) s) : fisherD f θ = s := by
  unfold fisherD
  rw [← hs.tsum_eq]
  congr 1; ext a
  rcases hd a with h | h
  · rw [h]; ring
  · rw [h.deriv]

/-! ### Bernoulli -/
section bern
variable {p : ℝ}
theorem hasSum_bool (f : Bool → ℝ) : HasSum f (f true + f false) := by
  have := hasSum_fintype f
  rwa [Fintype.sum_bool] at this

theorem bern_pmf (h0 : 0 ≤ p) (h1 : p ≤ 1) : IsPMF (bernPMF p) :=
  ⟨fun b => by cases b <;> simp [bernPMF] <;> linarith, hasSum_congr2 (hasSum_bool _) (fun _ => rfl) (by simp [bernPMF])⟩

theorem bern_central (c : ℝ) (k : ℕ) : HasCentralD (bernPMF p) boolVal c k ((1 - c) ^ k * p + (-c) ^ k * (1 - p)) := by
  refine hasSum_congr2 (hasSum_bool _) (fun _ => rfl) ?_
  simp [bernPMF, boolVal]

theorem bern_meanVar : HasMeanVarD (bernPMF p) boolVal p (p * (1 - p)) :=
  ⟨hasSum_congr2 (hasSum_bool _) (fun _ => rfl) (by simp [bernPMF, boolVal]), (bern_central p 2).congr_val (by ring)⟩

theorem bern_skew (h0 : 0 < p) (h1 : p < 1) :
    HasSkewD (bernPMF p) boolVal ((1 - 2 * p) / Real.sqrt (p * (1 - p))) := by
  have hv : 0 < p * (1 - p) := mul_pos h0 (by linarith)
  refine ⟨p, _, hv, bern_meanVar, (bern_central p 3).congr_val ?_⟩
  have hs := Real.sq_sqrt hv.le
  have hp := Real.sqrt_pos.2 hv
  rw [show (1 - 2 * p) / Real.sqrt (p * (1 - p)) * Real.sqrt (p * (1 - p)) ^ 3 =
    (1 - 2 * p) * Real.sqrt (p * (1 - p)) ^ 2 by field_simp, hs]
  ring

theorem bern_kurt (h0 : 0 < p) (h1 : p < 1) : HasKurtD (bernPMF p) boolVal (1 / (p * (1 - p)) - 3) := by
  have hv : 0 < p * (1 - p) := mul_pos h0 (by linarith)
  refine ⟨p, _, hv, bern_meanVar, (bern_central p 4).congr_val ?_⟩
  rw [show (1 / (p * (1 - p)) - 3) * (p * (1 - p)) ^ 2 = p * (1 - p) - 3 * (p * (1 - p)) ^ 2 by
    have h1 : (1 - p) ≠ 0 := by linarith
    field_simp]
  ring

theorem bern_fisher (h0 : 0 < p) (h1 : p < 1) : fisherD bernPMF p = 1 / (p * (1 - p)) := by
  have hq : (1 - p) ≠ 0 := by linarith
  refine fisherD_eq (g := fun b => match b with | true => 1 / p | false => -1 / (1 - p)) (fun b => Or.inr ?_)
    (hasSum_congr2 (hasSum_bool _) (fun _ => rfl) ?_)
  · cases b
    · show HasDerivAt (fun t : ℝ => Real.log (1 - t)) (-1 / (1 - p)) p
      exact (((hasDerivAt_id p).const_sub 1).log hq)
    · show HasDerivAt (fun t : ℝ => Real.log t) (1 / p) p
      exact (hasDerivAt_id p).log h0.ne'
  · simp only [bernPMF]
    field_simp; ring
end bern

/-! ### Binomial -/
section bin
variable {p : ℝ}

theorem binPMF_zero {n k : ℕ} (h : n < k) : binPMF n p k = 0 := by simp [binPMF, Nat.choose_eq_zero_of_lt h]

theorem bin_nonneg (h0 : 0 ≤ p) (h1 : p ≤ 1) (n k : ℕ) : 0 ≤ binPMF n p k := by
  have : 0 ≤ 1 - p := by linarith
  unfold binPMF; positivity

theorem bin_hasSum (n : ℕ) (g : ℕ → ℝ) :
    HasSum (fun k => g k * binPMF n p k) (∑ k ∈ range (n + 1), g k * binPMF n p k) :=
  hasSum_sum_of_ne_finset_zero fun k hk => by
    rw [binPMF_zero (by simpa [Nat.lt_succ_iff] using hk), mul_zero]

theorem bin_total (n : ℕ) : ∑ k ∈ range (n + 1), binPMF n p k = 1 := by
  have := add_pow p (1 - p) n
  rw [show p + (1 - p) = 1 by ring, one_pow] at this
  rw [this]
  exact sum_congr rfl fun k _ => by unfold binPMF; ring

theorem bin_pmf (h0 : 0 ≤ p) (h1 : p ≤ 1) (n : ℕ) : IsPMF (binPMF n p) :=
  ⟨bin_nonneg h0 h1 n, hasSum_congr2 (bin_hasSum (p := p) n fun _ => 1) (fun k => (one_mul _).symm) (by simp [bin_total])⟩

theorem bin_succ (n k : ℕ) : ((k : ℝ) + 1) * binPMF (n + 1) p (k + 1) = (n + 1) * p * binPMF n p k := by
  unfold binPMF
  have h : ((n + 1).choose (k + 1) : ℝ) * (k + 1) = (n + 1) * n.choose k := by
    exact_mod_cast (Nat.add_one_mul_choose_eq n k).symm
  rw [show n + 1 - (k + 1) = n - k by omega, pow_succ]
  linear_combination (p ^ k * p * (1 - p) ^ (n - k)) * h

/-- `E_{n+1}[X g(X)] = (n+1) p E_n[g(X+1)]` -/
theorem bin_step (n : ℕ) (g : ℕ → ℝ) {s : ℝ} (h : HasSum (fun k => g (k + 1) * binPMF n p k) s) :
    HasSum (fun k : ℕ => ((k : ℝ) * g k) * binPMF (n + 1) p k) ((n + 1) * p * s) := by
  rw [← hasSum_nat_add_iff' 1]
  refine hasSum_congr2 (h.mul_left ((n + 1) * p)) (fun k => ?_) (by simp)
  push_cast
  linear_combination g (k + 1) * bin_succ (p := p) n k

theorem bin_raw1 (n : ℕ) : HasSum (fun k : ℕ => (k : ℝ) * binPMF n p k) (n * p) := by
  cases n with
  | zero => exact hasSum_congr2 (bin_hasSum (p := p) 0 fun k => (k : ℝ)) (fun _ => rfl) (by simp)
  | succ n =>
    have := bin_step (p := p) n (fun _ => 1) (s := 1)
      (hasSum_congr2 (bin_hasSum (p := p) n fun _ => 1) (fun _ => rfl) (by simp [bin_total]))
    exact hasSum_congr2 this (fun k => by ring) (by push_cast; ring)

theorem bin_raw0 (n : ℕ) : HasSum (fun k : ℕ => (1 : ℝ) * binPMF n p k) 1 :=
  hasSum_congr2 (bin_hasSum (p := p) n fun _ => 1) (fun _ => rfl) (by simp [bin_total])

theorem bin_raw2 (n : ℕ) : HasSum (fun k : ℕ => (k : ℝ) ^ 2 * binPMF n p k) (n * p * ((n - 1) * p + 1)) := by
  cases n with
  | zero => exact hasSum_congr2 (bin_hasSum (p := p) 0 fun k => (k : ℝ) ^ 2) (fun _ => rfl) (by simp)
  | succ n =>
    have := bin_step (p := p) n (fun k => (k : ℝ)) (s := n * p + 1)
      (hasSum_congr2 ((bin_raw1 n).add (bin_raw0 n)) (fun k => by push_cast; ring) rfl)
    exact hasSum_congr2 this (fun k => by ring) (by push_cast; ring)

theorem bin_raw3 (n : ℕ) : HasSum (fun k : ℕ => (k : ℝ) ^ 3 * binPMF n p k)
    (n * p * ((n - 1) * p * ((n - 2) * p + 1) + 2 * ((n - 1) * p) + 1)) := by
  cases n with
  | zero => exact hasSum_congr2 (bin_hasSum (p := p) 0 fun k => (k : ℝ) ^ 3) (fun _ => rfl) (by simp)
  | succ n =>
    have := bin_step (p := p) n (fun k => (k : ℝ) ^ 2) (s := n * p * ((n - 1) * p + 1) + 2 * (n * p) + 1)
      (hasSum_congr2 (((bin_raw2 n).add ((bin_raw1 n).mul_left 2)).add (bin_raw0 n)) (fun k => by push_cast; ring) rfl)
    exact hasSum_congr2 this (fun k => by ring) (by push_cast; ring)

theorem bin_raw4 (n : ℕ) : HasSum (fun k : ℕ => (k : ℝ) ^ 4 * binPMF n p k)
    (n * p * ((n - 1) * p * ((n - 2) * p * ((n - 3) * p + 1) + 2 * ((n - 2) * p) + 1) +
      3 * ((n - 1) * p * ((n - 2) * p + 1)) + 3 * ((n - 1) * p) + 1)) := by
  cases n with
  | zero => exact hasSum_congr2 (bin_hasSum (p := p) 0 fun k => (k : ℝ) ^ 4) (fun _ => rfl) (by simp)
  | succ n =>
    have := bin_step (p := p) n (fun k => (k : ℝ) ^ 3) 
      (hasSum_congr2 ((((bin_raw3 n).add ((bin_raw2 n).mul_left 3)).add ((bin_raw1 n).mul_left 3)).add (bin_raw0 n))
        (fun k => by push_cast; ring) rfl)
    exact hasSum_congr2 this (fun k => by ring) (by push_cast; ring)

theorem bin_meanVar (n : ℕ) : HasMeanVarD (binPMF n p) (fun k => (k : ℝ)) (n * p) (n * p * (1 - p)) :=
  ⟨bin_raw1 n, (centralD2 (hasSum_congr2 (bin_raw0 n) (fun _ => (one_mul _).symm) rfl) (bin_raw1 n) (bin_raw2 n)).congr_val (by ring)⟩

theorem bin_skew {n : ℕ} (hn : 0 < n) (h0 : 0 < p) (h1 : p < 1) :
    HasSkewD (binPMF n p) (fun k => (k : ℝ)) ((1 - 2 * p) / Real.sqrt (n * p * (1 - p))) := by
  have hn' : (0 : ℝ) < n := by exact_mod_cast hn
  have hv : 0 < n * p * (1 - p) := mul_pos (by positivity) (by linarith)
  refine ⟨_, _, hv, bin_meanVar n, (centralD3 (hasSum_congr2 (bin_raw0 n) (fun _ => (one_mul _).symm) rfl) (bin_raw1 n)
    (bin_raw2 n) (bin_raw3 n)).congr_val ?_⟩
  have hs := Real.sq_sqrt hv.le
  have hp := Real.sqrt_pos.2 hv
  rw [show (1 - 2 * p) / Real.sqrt (n * p * (1 - p)) * Real.sqrt (n * p * (1 - p)) ^ 3 =
    (1 - 2 * p) * Real.sqrt (n * p * (1 - p)) ^ 2 by field_simp, hs]
  ring

theorem bin_kurt {n : ℕ} (hn : 0 < n) (h0 : 0 < p) (h1 : p < 1) :
    HasKurtD (binPMF n p) (fun k => (k : ℝ)) (3 + (1 - 6 * p * (1 - p)) / (n * p * (1 - p))) := by
  have hn' : (0 : ℝ) < n := by exact_mod_cast hn
  have hv : 0 < n * p * (1 - p) := mul_pos (by positivity) (by linarith)
  refine ⟨_, _, hv, bin_meanVar n, (centralD4 (hasSum_congr2 (bin_raw0 n) (fun _ => (one_mul _).symm) rfl) (bin_raw1 n)
    (bin_raw2 n) (bin_raw3 n) (bin_raw4 n)).congr_val ?_⟩
  rw [add_mul, div_mul_eq_mul_div, show (1 - 6 * p * (1 - p)) * (n * p * (1 - p)) ^ 2 / (n * p * (1 - p)) =
    (1 - 6 * p * (1 - p)) * (n * p * (1 - p)) by field_simp]
  ring

theorem bin_conv (m n : ℕ) : convPMF (binPMF m p) (binPMF n p) = binPMF (m + n) p := by
  ext k
  unfold convPMF
  have e : ∀ ij ∈ antidiagonal k, binPMF m p ij.1 * binPMF n p ij.2 =
      ((m.choose ij.1 * n.choose ij.2 : ℕ) : ℝ) * (p ^ k * (1 - p) ^ (m + n - k)) := by
    rintro ⟨i, j⟩ hij
    rw [mem_antidiagonal] at hij
    simp only at hij ⊢
    by_cases hi : m < i
    · rw [binPMF_zero hi, Nat.choose_eq_zero_of_lt hi]; simp
    by_cases hj : n < j
    · rw [binPMF_zero hj, Nat.choose_eq_zero_of_lt hj]; simp
    unfold binPMF
    rw [← hij, pow_add, show m + n - (i + j) = (m - i) + (n - j) by omega, pow_add]
    push_cast; ring
  rw [sum_congr rfl e, ← sum_mul, ← Nat.cast_sum, ← Nat.add_choose_eq]
  unfold binPMF; ring

theorem bin_fisher {n : ℕ} (h0 : 0 < p) (h1 : p < 1) : fisherD (binPMF n) p = n / (p * (1 - p)) := by
  have hq : (1 - p) ≠ 0 := by linarith
  refine fisherD_eq (g := fun k => ((k : ℝ) - n * p) / (p * (1 - p))) (fun k => ?_) ?_
  · by_cases hk : n < k
    · exact Or.inl (binPMF_zero hk)
    · right
      push Not at hk
      have hc : (0 : ℝ) < n.choose k := by exact_mod_cast Nat.choose_pos hk
      have h := ((((hasDerivAt_id p).pow k).const_mul (n.choose k : ℝ)).mul
        (((hasDerivAt_id p).const_sub 1).pow (n - k))).log (by
          have : (0:ℝ) < 1 - p := by linarith
          simp only [id, Pi.mul_apply, Pi.pow_apply]; positivity)
      refine HasDerivAt.congr_deriv (f := fun t => Real.log (binPMF n t k)) h ?_
      simp only [id, Pi.mul_apply, Pi.pow_apply]
      have hkn : ((n - k : ℕ) : ℝ) = n - k := by push_cast [hk]; ring
      have e1 : (k : ℝ) * p ^ (k - 1) = k * p ^ k / p := by
        rcases k with _ | k
        · simp
        · rw [Nat.add_sub_cancel, pow_succ]; field_simp
      have e2 : ((n - k : ℕ) : ℝ) * (1 - p) ^ (n - k - 1) = (n - k : ℕ) * (1 - p) ^ (n - k) / (1 - p) := by
        rcases (n - k) with _ | j
        · simp
        · rw [Nat.add_sub_cancel, pow_succ]; field_simp
      rw [e1, e2, hkn]
      have : (0:ℝ) < 1 - p := by linarith
      have hpk : p ^ k ≠ 0 := by positivity
      have hqk : (1 - p) ^ (n - k) ≠ 0 := by positivity
      field_simp
      ring
  · refine hasSum_congr2 ((bin_meanVar (p := p) n).2.div_const ((p * (1 - p)) ^ 2)) (fun k => by rw [div_pow]; ring) ?_
    field_simp

/-- `pmf(k+1)/pmf(k) = (n-k)p / ((k+1)(1-p))` -/
theorem bin_ratio (n k : ℕ) (hk : k < n) :
    ((k : ℝ) + 1) * (1 - p) * binPMF n p (k + 1) = (n - k) * p * binPMF n p k := by
  unfold binPMF
  have h : (n.choose (k + 1) : ℝ) * (k + 1) = n.choose k * (n - k) := by
    have := Nat.choose_succ_right_eq n k
    have h2 : ((n - k : ℕ) : ℝ) = n - k := by push_cast [hk.le]; ring
    rw [← h2]; exact_mod_cast this
  rw [show n - k = (n - (k + 1)) + 1 by omega, pow_succ, pow_succ]
  linear_combination (p ^ k * p * (1 - p) ^ (n - (k + 1)) * (1 - p)) * h
end bin

/-! ### Poisson -/
section pois
variable {l : ℝ}
theorem pois_nonneg (h : 0 ≤ l) (k : ℕ) : 0 ≤ poisPMF l k := by unfold poisPMF; positivity
theorem pois_pos (h : 0 < l) (k : ℕ) : 0 < poisPMF l k := by unfold poisPMF; positivity
theorem pois_raw0 : HasSum (fun k : ℕ => (1 : ℝ) * poisPMF l k) 1 := by
  have h := NormedSpace.expSeries_div_hasSum_exp l
  rw [← Real.exp_eq_exp_ℝ] at h
  refine hasSum_congr2 (h.mul_left (Real.exp (-l))) (fun k => ?_) (by rw [← Real.exp_add]; simp)
  unfold poisPMF; ring
theorem pois_pmf (h : 0 ≤ l) : IsPMF (poisPMF l) :=
  ⟨pois_nonneg h, hasSum_congr2 pois_raw0 (fun _ => (one_mul _).symm) rfl⟩
theorem pois_succ (k : ℕ) : ((k : ℝ) + 1) * poisPMF l (k + 1) = l * poisPMF l k := by
  unfold poisPMF; rw [Nat.factorial_succ, pow_succ]; push_cast; field_simp
/-- `E[X g(X)] = l E[g(X+1)]` -/
theorem pois_step (g : ℕ → ℝ) {s : ℝ} (h : HasSum (fun k => g (k + 1) * poisPMF l k) s) :
    HasSum (fun k : ℕ => ((k : ℝ) * g k) * poisPMF l k) (l * s) := by
  rw [← hasSum_nat_add_iff' 1]
  refine hasSum_congr2 (h.mul_left l) (fun k => ?_) (by simp)
  push_cast
  linear_combination g (k + 1) * pois_succ (l := l) k
theorem pois_raw1 : HasSum (fun k : ℕ => (k : ℝ) * poisPMF l k) l :=
  hasSum_congr2 (pois_step (fun _ => 1) pois_raw0) (fun k => by ring) (by ring)
theorem pois_raw2 : HasSum (fun k : ℕ => (k : ℝ) ^ 2 * poisPMF l k) (l * (l + 1)) :=
  hasSum_congr2 (pois_step (fun k => (k : ℝ)) (hasSum_congr2 (pois_raw1.add pois_raw0) (fun k => by push_cast; ring) rfl))
    (fun k => by ring) rfl
theorem pois_raw3 : HasSum (fun k : ℕ => (k : ℝ) ^ 3 * poisPMF l k) (l * (l * (l + 1) + 2 * l + 1)) :=
  hasSum_congr2 (pois_step (fun k => (k : ℝ) ^ 2) (hasSum_congr2 ((pois_raw2.add (pois_raw1.mul_left 2)).add pois_raw0)
    (fun k => by push_cast; ring) rfl)) (fun k => by ring) rfl
theorem pois_raw4 : HasSum (fun k : ℕ => (k : ℝ) ^ 4 * poisPMF l k)
    (l * (l * (l * (l + 1) + 2 * l + 1) + 3 * (l * (l + 1)) + 3 * l + 1)) :=
  hasSum_congr2 (pois_step (fun k => (k : ℝ) ^ 3) (hasSum_congr2 (((pois_raw3.add (pois_raw2.mul_left 3)).add
    (pois_raw1.mul_left 3)).add pois_raw0) (fun k => by push_cast; ring) rfl)) (fun k => by ring) rfl
theorem pois_one : HasSum (poisPMF l) 1 := hasSum_congr2 pois_raw0 (fun _ => (one_mul _).symm) rfl
theorem pois_meanVar : HasMeanVarD (poisPMF l) (fun k => (k : ℝ)) l l :=
  ⟨pois_raw1, (centralD2 pois_one pois_raw1 pois_raw2).congr_val (by ring)⟩
theorem pois_skew (h : 0 < l) : HasSkewD (poisPMF l) (fun k => (k : ℝ)) (1 / Real.sqrt l) := by
  refine ⟨_, _, h, pois_meanVar, (centralD3 pois_one pois_raw1 pois_raw2 pois_raw3).congr_val ?_⟩
  have hs := Real.sq_sqrt h.le
  have hp := Real.sqrt_pos.2 h
  rw [show 1 / Real.sqrt l * Real.sqrt l ^ 3 = Real.sqrt l ^ 2 by field_simp, hs]; ring
theorem pois_kurt (h : 0 < l) : HasKurtD (poisPMF l) (fun k => (k : ℝ)) (3 + 1 / l) := by
  refine ⟨_, _, h, pois_meanVar, (centralD4 pois_one pois_raw1 pois_raw2 pois_raw3 pois_raw4).congr_val ?_⟩
  field_simp; ring
theorem pois_conv (l m : ℝ) : convPMF (poisPMF l) (poisPMF m) = poisPMF (l + m) := by
  ext k
  unfold convPMF
  have e : ∀ ij ∈ antidiagonal k, poisPMF l ij.1 * poisPMF m ij.2 =
      (l ^ ij.1 * m ^ ij.2 * k.choose ij.1) * (Real.exp (-(l + m)) / k.factorial) := by
    rintro ⟨i, j⟩ hij
    rw [mem_antidiagonal] at hij
    simp only at hij ⊢
    have hc : (k.choose i : ℝ) * i.factorial * j.factorial = k.factorial := by
      have := Nat.choose_mul_factorial_mul_factorial (show i ≤ k by omega)
      rw [show k - i = j by omega] at this
      exact_mod_cast this
    unfold poisPMF
    rw [neg_add, Real.exp_add, ← hc]
    have h1 : (i.factorial : ℝ) ≠ 0 := by positivity
    have h2 : (j.factorial : ℝ) ≠ 0 := by positivity
    have h3 : (k.choose i : ℝ) ≠ 0 := by exact_mod_cast (Nat.choose_pos (show i ≤ k by omega)).ne'
    field_simp
  rw [sum_congr rfl e, ← sum_mul, Finset.Nat.sum_antidiagonal_eq_sum_range_succ_mk, ← add_pow]
  unfold poisPMF; ring
theorem pois_hasDeriv (h : 0 < l) (k : ℕ) : HasDerivAt (fun t => Real.log (poisPMF t k)) (k / l - 1) l := by
  have h1 := ((((hasDerivAt_id l).pow k).mul ((hasDerivAt_id l).neg.exp)).div_const (k.factorial : ℝ)).log
    (by simp only [id, Pi.mul_apply, Pi.pow_apply, Pi.neg_apply]; positivity)
  refine HasDerivAt.congr_deriv (f := fun t => Real.log (poisPMF t k)) h1 ?_
  simp only [id, Pi.mul_apply, Pi.pow_apply, Pi.neg_apply]
  have e1 : (k : ℝ) * l ^ (k - 1) = k * l ^ k / l := by
    rcases k with _ | k
    · simp
    · rw [Nat.add_sub_cancel, pow_succ]; field_simp
  rw [e1]
  have h3 : (k.factorial : ℝ) ≠ 0 := by positivity
  field_simp; ring
theorem pois_fisher (h : 0 < l) : fisherD poisPMF l = 1 / l := by
  refine fisherD_eq (g := fun k => (k : ℝ) / l - 1) (fun k => Or.inr (pois_hasDeriv h k)) ?_
  refine hasSum_congr2 ((pois_meanVar (l := l)).2.div_const (l ^ 2)) (fun k => ?_) ?_
  · field_simp
  · field_simp
/-- the floor of the rate is a most likely value -/
theorem pois_mode (h : 0 < l) : IsModeD (poisPMF l) ⌊l⌋₊ := by
  have up : ∀ k, k + 1 ≤ ⌊l⌋₊ → poisPMF l k ≤ poisPMF l (k + 1) := by
    intro k hk
    have h1 : ((k : ℝ) + 1) ≤ l := by exact_mod_cast (Nat.le_floor_iff h.le).1 hk
    have := pois_succ (l := l) k
    have hp := pois_pos h k
    by_contra hc
    push Not at hc
    have h2 : ((k : ℝ) + 1) * poisPMF l (k + 1) < l * poisPMF l k := by
      have : (0:ℝ) < k + 1 := by positivity
      nlinarith
    linarith
  have dn : ∀ k, ⌊l⌋₊ ≤ k → poisPMF l (k + 1) ≤ poisPMF l k := by
    intro k hk
    have h1 : l ≤ (k : ℝ) + 1 := by exact_mod_cast ((Nat.floor_lt h.le).1 (Nat.lt_succ_of_le hk)).le
    have := pois_succ (l := l) k
    have hp := pois_pos h k
    by_contra hc
    push Not at hc
    have h2 : l * poisPMF l k < ((k : ℝ) + 1) * poisPMF l (k + 1) := by
      have : (0:ℝ) < k + 1 := by positivity
      nlinarith
    linarith
  intro j
  rcases le_total j ⌊l⌋₊ with hj | hj
  · obtain ⟨d, hd⟩ := Nat.exists_eq_add_of_le hj
    clear hj
    induction d generalizing j with
    | zero => rw [hd]; simp
    | succ d ih => exact (up j (by omega)).trans (ih (j + 1) (by omega))
  · obtain ⟨d, rfl⟩ := Nat.exists_eq_add_of_le hj
    clear hj
    induction d with
    | zero => simp
    | succ d ih => exact (dn (⌊l⌋₊ + d) (by omega)).trans ih
end pois

/-! ### Geometric -/
section geom
variable {p : ℝ}
theorem geom_choose (h0 : 0 < p) (h1 : p ≤ 1) (j : ℕ) :
    HasSum (fun k : ℕ => ((k + j).choose j : ℝ) * geomPMF p k) (1 / p ^ j) := by
  have h := (hasSum_choose_mul_geometric_of_norm_lt_one j (r := 1 - p)
    (by rw [Real.norm_eq_abs, abs_lt]; constructor <;> linarith)).mul_left p
  refine hasSum_congr2 h (fun k => by unfold geomPMF; ring) ?_
  rw [sub_sub_cancel, pow_succ]; field_simp
theorem geom_nonneg (h0 : 0 ≤ p) (h1 : p ≤ 1) (k : ℕ) : 0 ≤ geomPMF p k := by
  have : 0 ≤ 1 - p := by linarith
  unfold geomPMF; positivity
theorem geom_one (h0 : 0 < p) (h1 : p ≤ 1) : HasSum (geomPMF p) 1 :=
  hasSum_congr2 (geom_choose h0 h1 0) (fun k => by simp) (by simp)
theorem geom_pmf (h0 : 0 < p) (h1 : p ≤ 1) : IsPMF (geomPMF p) := ⟨geom_nonneg h0.le h1, geom_one h0 h1⟩
theorem geom_raw1 (h0 : 0 < p) (h1 : p ≤ 1) : HasSum (fun k : ℕ => (k : ℝ) * geomPMF p k) ((1 - p) / p) := by
  refine hasSum_congr2 ((geom_choose h0 h1 1).sub (geom_one h0 h1)) (fun k => ?_) ?_
  · rw [Nat.choose_one_right]; push_cast; ring
  · field_simp
theorem choose2 (k : ℕ) : (((k + 2).choose 2 : ℕ) : ℝ) = (k + 2) * (k + 1) / 2 := by
  rw [Nat.cast_choose_two]; push_cast; ring
theorem choose3 (k : ℕ) : (((k + 3).choose 3 : ℕ) : ℝ) = (k + 3) * (k + 2) * (k + 1) / 6 := by
  have h := Nat.add_one_mul_choose_eq (k + 2) 2
  have h' : ((k : ℝ) + 2 + 1) * ((k + 2).choose 2 : ℕ) = ((k + 3).choose 3 : ℕ) * (2 + 1) := by exact_mod_cast h
  rw [choose2] at h'
  linarith
theorem choose4 (k : ℕ) : (((k + 4).choose 4 : ℕ) : ℝ) = (k + 4) * (k + 3) * (k + 2) * (k + 1) / 24 := by
  have h := Nat.add_one_mul_choose_eq (k + 3) 3
  have h' : ((k : ℝ) + 3 + 1) * ((k + 3).choose 3 : ℕ) = ((k + 4).choose 4 : ℕ) * (3 + 1) := by exact_mod_cast h
  rw [choose3] at h'
  linarith
theorem geom_raw2 (h0 : 0 < p) (h1 : p ≤ 1) :
    HasSum (fun k : ℕ => (k : ℝ) ^ 2 * geomPMF p k) (2 / p ^ 2 - 3 / p + 1) := by
  refine hasSum_congr2 (((geom_choose h0 h1 2).mul_left 2).sub (((geom_raw1 h0 h1).mul_left 3).add
    ((geom_one h0 h1).mul_left 2))) (fun k => ?_) ?_
  · rw [choose2]; ring
  · field_simp; ring
theorem geom_raw3 (h0 : 0 < p) (h1 : p ≤ 1) :
    HasSum (fun k : ℕ => (k : ℝ) ^ 3 * geomPMF p k) (6 / p ^ 3 - 12 / p ^ 2 + 7 / p - 1) := by
  refine hasSum_congr2 (((geom_choose h0 h1 3).mul_left 6).sub ((((geom_raw2 h0 h1).mul_left 6).add
    ((geom_raw1 h0 h1).mul_left 11)).add ((geom_one h0 h1).mul_left 6))) (fun k => ?_) ?_
  · rw [choose3]; ring
  · field_simp; ring
theorem geom_raw4 (h0 : 0 < p) (h1 : p ≤ 1) :
    HasSum (fun k : ℕ => (k : ℝ) ^ 4 * geomPMF p k) (24 / p ^ 4 - 60 / p ^ 3 + 50 / p ^ 2 - 15 / p + 1) := by
  refine hasSum_congr2 (((geom_choose h0 h1 4).mul_left 24).sub (((((geom_raw3 h0 h1).mul_left 10).add
    ((geom_raw2 h0 h1).mul_left 35)).add ((geom_raw1 h0 h1).mul_left 50)).add ((geom_one h0 h1).mul_left 24)))
    (fun k => ?_) ?_
  · rw [choose4]; ring
  · field_simp; ring
theorem geom_meanVar (h0 : 0 < p) (h1 : p ≤ 1) :
    HasMeanVarD (geomPMF p) (fun k => (k : ℝ)) ((1 - p) / p) ((1 - p) / p ^ 2) :=
  ⟨geom_raw1 h0 h1, (centralD2 (geom_one h0 h1) (geom_raw1 h0 h1) (geom_raw2 h0 h1)).congr_val (by field_simp; ring)⟩
theorem geom_skew (h0 : 0 < p) (h1 : p < 1) :
    HasSkewD (geomPMF p) (fun k => (k : ℝ)) ((2 - p) / Real.sqrt (1 - p)) := by
  have hq : 0 < 1 - p := by linarith
  have hv : 0 < (1 - p) / p ^ 2 := by positivity
  refine ⟨_, _, hv, geom_meanVar h0 h1.le, (centralD3 (geom_one h0 h1.le) (geom_raw1 h0 h1.le) (geom_raw2 h0 h1.le)
    (geom_raw3 h0 h1.le)).congr_val ?_⟩
  rw [Real.sqrt_div hq.le, Real.sqrt_sq h0.le]
  have hs := Real.sq_sqrt hq.le
  have hp := Real.sqrt_pos.2 hq
  rw [show (2 - p) / Real.sqrt (1 - p) * (Real.sqrt (1 - p) / p) ^ 3 = (2 - p) * Real.sqrt (1 - p) ^ 2 / p ^ 3 by
    field_simp, hs]
  field_simp; ring
theorem geom_kurt (h0 : 0 < p) (h1 : p < 1) :
    HasKurtD (geomPMF p) (fun k => (k : ℝ)) (9 + p ^ 2 / (1 - p)) := by
  have hq : 0 < 1 - p := by linarith
  have hv : 0 < (1 - p) / p ^ 2 := by positivity
  refine ⟨_, _, hv, geom_meanVar h0 h1.le, (centralD4 (geom_one h0 h1.le) (geom_raw1 h0 h1.le) (geom_raw2 h0 h1.le)
    (geom_raw3 h0 h1.le) (geom_raw4 h0 h1.le)).congr_val ?_⟩
  field_simp; ring
theorem geom_partial (n : ℕ) : ∑ k ∈ range n, geomPMF p k = 1 - (1 - p) ^ n := by
  induction n with
  | zero => simp
  | succ n ih => rw [sum_range_succ, ih]; unfold geomPMF; ring
theorem hasSum_Iic (f : ℕ → ℝ) (k : ℕ) : HasSum (fun j : Set.Iic k => f j) (∑ j ∈ range (k + 1), f j) := by
  have h := (range (k + 1)).hasSum f
  have e : (↑(range (k + 1)) : Set ℕ) = Set.Iic k := by ext j; simp
  have h' : HasSum (f ∘ ((↑) : (↑(range (k + 1)) : Set ℕ) → ℕ)) (∑ j ∈ range (k + 1), f j) := h
  rw [e] at h'
  exact h'
theorem geom_cdf : IsCDFOfPMF (geomPMF p) (fun k => 1 - (1 - p) ^ (k + 1)) := fun k => by
  show HasSum _ (1 - (1 - p) ^ (k + 1))
  rw [← geom_partial]; exact hasSum_Iic _ k
/-- entropy in nats -/
theorem geom_entropy (h0 : 0 < p) (h1 : p < 1) :
    HasEntropyD (geomPMF p) ((-(1 - p) * Real.log (1 - p) - p * Real.log p) / p) := by
  have hq : 0 < 1 - p := by linarith
  unfold HasEntropyD
  refine hasSum_congr2 ((((geom_one h0 h1.le).mul_left (Real.log p)).add
    ((geom_raw1 h0 h1.le).mul_left (Real.log (1 - p)))).neg) (fun k => ?_) ?_
  · have : Real.log (geomPMF p k) = Real.log p + k * Real.log (1 - p) := by
      unfold geomPMF; rw [Real.log_mul h0.ne' (by positivity), Real.log_pow]
    rw [this]; ring
  · field_simp; ring
end geom
end Rstat.Spec
