import Verif.Lemmas.Dist.Beta
import Verif.Lemmas.Dist.Discrete

/-! The Beta-binomial law: mixture of binomials, raw and central moments. -/
namespace Rstat.Spec
open MeasureTheory Real Set Filter Topology

variable {a b : ℝ}

theorem bb_zero {n k : ℕ} (h : n < k) : betaBinPMF n a b k = 0 := by simp [betaBinPMF, Nat.choose_eq_zero_of_lt h]

theorem bb_nonneg (ha : 0 < a) (hb : 0 < b) (n k : ℕ) : 0 ≤ betaBinPMF n a b k := by
  rcases lt_or_ge n k with h | h
  · rw [bb_zero h]
  · have h' : (k:ℝ) ≤ n := by exact_mod_cast h
    have := Beta_pos (show 0 < (k:ℝ) + a by positivity) (show 0 < (n:ℝ) - k + b by linarith)
    have := Beta_pos ha hb
    unfold betaBinPMF; positivity

/-- it is the mixture of the binomial laws over Beta(a, b) -/
theorem bb_mixture (ha : 0 < a) (hb : 0 < b) (n k : ℕ) :
    IntegrableOn (fun u => binPMF n u k * betaW a b u) (Ioo 0 1) ∧
    ∫ u in Ioo 0 1, binPMF n u k * betaW a b u = betaBinPMF n a b k := by
  rcases lt_or_ge n k with h | h
  · simp only [binPMF_zero h, bb_zero h, zero_mul]
    exact ⟨integrableOn_zero, by simp⟩
  · have h' : (k:ℝ) ≤ n := by exact_mod_cast h
    obtain ⟨i, v⟩ := beta_exp (a := a) (b := b) (p := k) (q := (n:ℝ) - k) (by positivity) (by linarith)
    have e : ∀ u ∈ Ioo (0:ℝ) 1, (n.choose k : ℝ) * (u ^ (k:ℝ) * (1 - u) ^ ((n:ℝ) - k) * betaW a b u) = binPMF n u k * betaW a b u := fun u hu => by
      rw [rpow_natCast, show (n:ℝ) - k = ((n - k : ℕ) : ℝ) by push_cast [h]; ring, rpow_natCast, binPMF]; ring
    refine ⟨IntegrableOn.congr_fun (i.const_mul _) e measurableSet_Ioo, ?_⟩
    rw [← setIntegral_congr_fun measurableSet_Ioo e, integral_const_mul, v, betaBinPMF, add_comm a, add_comm b, mul_div_assoc]

theorem bb_hasSum (n : ℕ) (g : ℕ → ℝ) :
    HasSum (fun k => g k * betaBinPMF n a b k) (∑ k ∈ Finset.range (n + 1), g k * betaBinPMF n a b k) :=
  hasSum_sum_of_ne_finset_zero fun k hk => by
    rw [bb_zero (by simpa [Nat.lt_succ_iff] using hk), mul_zero]

theorem bb_raw0 (ha : 0 < a) (hb : 0 < b) (n : ℕ) : HasSum (fun k : ℕ => (1 : ℝ) * betaBinPMF n a b k) 1 := by
  refine hasSum_congr2 (bb_hasSum n fun _ => 1) (fun _ => rfl) ?_
  simp only [one_mul]
  rw [Finset.sum_congr rfl fun k _ => (bb_mixture ha hb n k).2.symm, ← integral_finsetSum _ fun k _ => (bb_mixture ha hb n k).1]
  simp only [← Finset.sum_mul, bin_total, one_mul]
  exact (beta_exp_log ha hb).2.2.2.symm

theorem bb_pmf (ha : 0 < a) (hb : 0 < b) (n : ℕ) : IsPMF (betaBinPMF n a b) :=
  ⟨bb_nonneg ha hb n, hasSum_congr2 (bb_raw0 ha hb n) (fun _ => (one_mul _).symm) rfl⟩

theorem bb_succ (ha : 0 < a) (hb : 0 < b) (n k : ℕ) :
    ((k : ℝ) + 1) * betaBinPMF (n + 1) a b (k + 1) = (n + 1) * (a / (a + b)) * betaBinPMF n (a + 1) b k := by
  have h : ((n + 1).choose (k + 1) : ℝ) * (k + 1) = (n + 1) * n.choose k := by
    exact_mod_cast (Nat.add_one_mul_choose_eq n k).symm
  have hB := (Beta_pos ha hb).ne'
  have hab : a + b ≠ 0 := by linarith
  unfold betaBinPMF
  rw [Beta_succ ha hb]
  push_cast
  rw [show (k:ℝ) + 1 + a = k + (a + 1) by ring, show (n:ℝ) + 1 - (k + 1) + b = n - k + b by ring]
  generalize Beta (k + (a + 1)) (n - k + b) = B
  field_simp
  linear_combination B * h

theorem bb_step (ha : 0 < a) (hb : 0 < b) (n : ℕ) (g : ℕ → ℝ) {s : ℝ} (h : HasSum (fun k => g (k + 1) * betaBinPMF n (a + 1) b k) s) :
    HasSum (fun k : ℕ => ((k : ℝ) * g k) * betaBinPMF (n + 1) a b k) ((n + 1) * (a / (a + b)) * s) := by
  rw [← hasSum_nat_add_iff' 1]
  refine hasSum_congr2 (h.mul_left ((n + 1) * (a / (a + b)))) (fun k => ?_) (by simp)
  have := bb_succ ha hb n k
  push_cast
  linear_combination g (k + 1) * this

theorem bb_raw1 (ha : 0 < a) (hb : 0 < b) (n : ℕ) : HasSum (fun k : ℕ => (k : ℝ) * betaBinPMF n a b k) (n * (a / (a + b))) := by
  cases n with
  | zero => exact hasSum_congr2 (bb_hasSum (a := a) (b := b) 0 fun k => (k : ℝ)) (fun _ => rfl) (by simp)
  | succ n =>
    have := bb_step ha hb n (fun _ => 1) (bb_raw0 (by linarith) hb n)
    exact hasSum_congr2 this (fun k => by ring) (by push_cast; ring)

theorem bb_raw2 (ha : 0 < a) (hb : 0 < b) (n : ℕ) : HasSum (fun k : ℕ => (k : ℝ) ^ 2 * betaBinPMF n a b k)
    (n * (a / (a + b)) * ((n - 1) * ((a + 1) / (a + b + 1)) + 1)) := by
  cases n with
  | zero => exact hasSum_congr2 (bb_hasSum (a := a) (b := b) 0 fun k => (k : ℝ) ^ 2) (fun _ => rfl) (by simp)
  | succ n =>
    have ha1 : 0 < a + 1 := by linarith
    have := bb_step ha hb n (fun k => (k : ℝ)) (s := n * ((a + 1) / (a + 1 + b)) + 1)
      (hasSum_congr2 ((bb_raw1 ha1 hb n).add (bb_raw0 ha1 hb n)) (fun k => by push_cast; ring) rfl)
    exact hasSum_congr2 this (fun k => by ring) (by push_cast; rw [show a + 1 + b = a + b + 1 by ring]; ring)

theorem bb_raw3 (ha : 0 < a) (hb : 0 < b) (n : ℕ) : HasSum (fun k : ℕ => (k : ℝ) ^ 3 * betaBinPMF n a b k)
    (n * (a / (a + b)) * ((n - 1) * ((a + 1) / (a + b + 1)) * ((n - 2) * ((a + 2) / (a + b + 2)) + 1) + 2 * ((n - 1) * ((a + 1) / (a + b + 1))) + 1)) := by
  cases n with
  | zero => exact hasSum_congr2 (bb_hasSum (a := a) (b := b) 0 fun k => (k : ℝ) ^ 3) (fun _ => rfl) (by simp)
  | succ n =>
    have ha1 : 0 < a + 1 := by linarith
    have := bb_step ha hb n (fun k => (k : ℝ) ^ 2)
      (hasSum_congr2 (((bb_raw2 ha1 hb n).add ((bb_raw1 ha1 hb n).mul_left 2)).add (bb_raw0 ha1 hb n)) (fun k => by push_cast; ring) rfl)
    exact hasSum_congr2 this (fun k => by ring) (by
      push_cast; rw [show a + 1 + b = a + b + 1 by ring, show a + b + 1 + 1 = a + b + 2 by ring, show a + 1 + 1 = a + 2 by ring]; ring)

theorem bb_raw4 (ha : 0 < a) (hb : 0 < b) (n : ℕ) : HasSum (fun k : ℕ => (k : ℝ) ^ 4 * betaBinPMF n a b k)
    (n * (a / (a + b)) * ((n - 1) * ((a + 1) / (a + b + 1)) * ((n - 2) * ((a + 2) / (a + b + 2)) * ((n - 3) * ((a + 3) / (a + b + 3)) + 1) +
        2 * ((n - 2) * ((a + 2) / (a + b + 2))) + 1) +
      3 * ((n - 1) * ((a + 1) / (a + b + 1)) * ((n - 2) * ((a + 2) / (a + b + 2)) + 1)) + 3 * ((n - 1) * ((a + 1) / (a + b + 1))) + 1)) := by
  cases n with
  | zero => exact hasSum_congr2 (bb_hasSum (a := a) (b := b) 0 fun k => (k : ℝ) ^ 4) (fun _ => rfl) (by simp)
  | succ n =>
    have ha1 : 0 < a + 1 := by linarith
    have := bb_step ha hb n (fun k => (k : ℝ) ^ 3)
      (hasSum_congr2 ((((bb_raw3 ha1 hb n).add ((bb_raw2 ha1 hb n).mul_left 3)).add ((bb_raw1 ha1 hb n).mul_left 3)).add (bb_raw0 ha1 hb n))
        (fun k => by push_cast; ring) rfl)
    exact hasSum_congr2 this (fun k => by ring) (by
      push_cast
      rw [show a + 1 + b = a + b + 1 by ring, show a + b + 1 + 1 = a + b + 2 by ring, show a + 1 + 1 = a + 2 by ring,
        show a + b + 1 + 2 = a + b + 3 by ring, show a + 1 + 2 = a + 3 by ring]; ring)

theorem bb_meanVar (ha : 0 < a) (hb : 0 < b) (n : ℕ) : HasMeanVarD (betaBinPMF n a b) (fun k => (k : ℝ)) (n * (a / (a + b)))
    (n * a * b * (a + b + n) / ((a + b) ^ 2 * (a + b + 1))) := by
  refine ⟨bb_raw1 ha hb n, (centralD2 (bb_pmf ha hb n).2 (bb_raw1 ha hb n) (bb_raw2 ha hb n)).congr_val ?_⟩
  have h1 : a + b ≠ 0 := by linarith
  have h2 : a + b + 1 ≠ 0 := by linarith
  field_simp; ring

theorem bb_central3 (ha : 0 < a) (hb : 0 < b) (n : ℕ) : HasCentralD (betaBinPMF n a b) (fun k => (k : ℝ)) (n * (a / (a + b))) 3
    (n * a * b * (b - a) * (a + b + n) * (a + b + 2 * n) / ((a + b) ^ 3 * (a + b + 1) * (a + b + 2))) := by
  refine (centralD3 (bb_pmf ha hb n).2 (bb_raw1 ha hb n) (bb_raw2 ha hb n) (bb_raw3 ha hb n)).congr_val ?_
  have h1 : a + b ≠ 0 := by linarith
  have h2 : a + b + 1 ≠ 0 := by linarith
  have h3 : a + b + 2 ≠ 0 := by linarith
  field_simp; ring

theorem bb_skew (ha : 0 < a) (hb : 0 < b) {n : ℕ} (hn : 0 < n) : HasSkewD (betaBinPMF n a b) (fun k => (k : ℝ))
    ((a + b + 2 * n) * (b - a) / (a + b + 2) * Real.sqrt ((a + b + 1) / (n * a * b * (a + b + n)))) := by
  have hn' : (0:ℝ) < n := by exact_mod_cast hn
  have hv : 0 < n * a * b * (a + b + n) / ((a + b) ^ 2 * (a + b + 1)) := by positivity
  refine ⟨_, _, hv, bb_meanVar ha hb n, (bb_central3 ha hb n).congr_val ?_⟩
  have e1 : Real.sqrt (n * a * b * (a + b + n) / ((a + b) ^ 2 * (a + b + 1))) = Real.sqrt (n * a * b * (a + b + n)) / ((a + b) * Real.sqrt (a + b + 1)) := by
    rw [Real.sqrt_div (by positivity), Real.sqrt_mul (show 0 ≤ (a + b) ^ 2 by positivity), Real.sqrt_sq (by positivity)]
  have e2 : Real.sqrt ((a + b + 1) / (n * a * b * (a + b + n))) = Real.sqrt (a + b + 1) / Real.sqrt (n * a * b * (a + b + n)) :=
    Real.sqrt_div (by positivity) _
  rw [e1, e2]
  have p1 : 0 < Real.sqrt (n * a * b * (a + b + n)) := Real.sqrt_pos.2 (by positivity)
  have p2 : 0 < Real.sqrt (a + b + 1) := Real.sqrt_pos.2 (by positivity)
  have q1 := Real.sq_sqrt (show 0 ≤ n * a * b * (a + b + n) by positivity)
  have q2 := Real.sq_sqrt (show 0 ≤ a + b + 1 by positivity)
  have hab : 0 < a + b := by positivity
  have hab2 : 0 < a + b + 2 := by positivity
  generalize hS : Real.sqrt (n * a * b * (a + b + n)) = S at *
  generalize hT : Real.sqrt (a + b + 1) = T at *
  have : (a + b + 2 * n) * (b - a) / (a + b + 2) * (T / S) * (S / ((a + b) * T)) ^ 3 =
      (a + b + 2 * n) * (b - a) / (a + b + 2) * (S ^ 2 / ((a + b) ^ 3 * T ^ 2)) := by field_simp
  rw [this, q1, q2]
  field_simp

theorem bb_kurt (ha : 0 < a) (hb : 0 < b) {n : ℕ} (hn : 0 < n) : HasKurtD (betaBinPMF n a b) (fun k => (k : ℝ))
    ((a + b) ^ 2 * (a + b + 1) / (n * a * b * (a + b + 2) * (a + b + 3) * (a + b + n)) *
      ((a + b) * (a + b - 1 + 6 * n) + 3 * a * b * (n - 2) + 6 * n ^ 2 - 3 * a * b * n * (6 - n) / (a + b) - 18 * a * b * n ^ 2 / (a + b) ^ 2)) := by
  have hn' : (0:ℝ) < n := by exact_mod_cast hn
  have hv : 0 < n * a * b * (a + b + n) / ((a + b) ^ 2 * (a + b + 1)) := by positivity
  refine ⟨_, _, hv, bb_meanVar ha hb n,
    (centralD4 (bb_pmf ha hb n).2 (bb_raw1 ha hb n) (bb_raw2 ha hb n) (bb_raw3 ha hb n) (bb_raw4 ha hb n)).congr_val ?_⟩
  have h1 : a + b ≠ 0 := by linarith
  have h2 : a + b + 1 ≠ 0 := by linarith
  have h3 : a + b + 2 ≠ 0 := by linarith
  have h4 : a + b + 3 ≠ 0 := by linarith
  have h5 : a + b + n ≠ 0 := by positivity
  field_simp; ring
end Rstat.Spec
