import Verif.Spec.Discrete
import Verif.Lemmas.Moments
import Verif.Spec.Families
import Mathlib.Analysis.SpecialFunctions.Integrals.Basic

namespace Rstat.Spec
open MeasureTheory Filter Topology Set

theorem std_uniform_density : IsCDF (uniformCDF 0 1) ∧ IsDensityOf (uniformPDF 0 1) (uniformCDF 0 1) := by
  have h := clamp_density (a := 0) (b := 1) (G := fun x => x) (g := fun _ => 1) one_pos (fun x _ => hasDerivAt_id x)
    (fun _ _ => zero_le_one) rfl rfl continuousOn_id
  have e : uniformCDF 0 1 = clampCDF 0 1 (fun x => x) := by ext x; simp [uniformCDF, clampCDF]
  rw [e]
  refine ⟨h.1, h.2.congr (s := {0, 1}) (by simp) (fun x hx => ?_) fun x => ?_⟩
  · simp only [mem_insert_iff, mem_singleton_iff, not_or] at hx
    unfold uniformPDF
    have : (0 ≤ x ∧ x ≤ 1) ↔ ¬ (x ≤ 0 ∨ 1 ≤ x) := by
      push Not
      exact ⟨fun h => ⟨lt_of_le_of_ne h.1 (Ne.symm hx.1), lt_of_le_of_ne h.2 hx.2⟩, fun h => ⟨h.1.le, h.2.le⟩⟩
    by_cases hc : x ≤ 0 ∨ 1 ≤ x
    · rw [if_pos hc, if_neg (by rw [this]; exact not_not.2 hc)]
    · rw [if_neg hc, if_pos (this.2 hc)]; norm_num
  · unfold uniformPDF; split_ifs <;> norm_num

theorem uniform_locScale {a w : ℝ} (hw : 0 < w) : uniformPDF a (a + w) = locScale a w (uniformPDF 0 1) := by
  ext x
  unfold uniformPDF locScale
  have : (0 ≤ (x - a) / w ∧ (x - a) / w ≤ 1) ↔ (a ≤ x ∧ x ≤ a + w) := by
    rw [le_div_iff₀ hw, div_le_one hw, zero_mul]
    constructor <;> rintro ⟨h1, h2⟩ <;> constructor <;> linarith
  simp only [this]
  split_ifs <;> simp
theorem uniformCDF_locScale {a w : ℝ} (hw : 0 < w) (x : ℝ) : uniformCDF a (a + w) x = uniformCDF 0 1 ((x - a) / w) := by
  have h1 : (x - a) / w < 0 ↔ x < a := by rw [div_lt_iff₀ hw, zero_mul, sub_neg]
  have h2 : 1 ≤ (x - a) / w ↔ a + w ≤ x := by rw [one_le_div hw, le_sub_iff_add_le, add_comm]
  unfold uniformCDF
  simp only [h1, h2, sub_zero, add_sub_cancel_left, div_one]

theorem uniform_density {a w : ℝ} (hw : 0 < w) :
    IsCDF (uniformCDF a (a + w)) ∧ IsDensityOf (uniformPDF a (a + w)) (uniformCDF a (a + w)) := by
  have e : uniformCDF a (a + w) = fun x => uniformCDF 0 1 ((x - a) / w) := by ext x; exact uniformCDF_locScale hw x
  rw [e, uniform_locScale hw]
  exact ⟨locScale_isCDF hw std_uniform_density.1, locScale_density hw std_uniform_density.2⟩

theorem std_uniform_raw (k : ℕ) : HasCentral (uniformPDF 0 1) 0 k (1 / (k + 1)) := by
  have := supp_integral (a := 0) (b := 1) zero_le_one (F := fun x => (x - 0) ^ k * uniformPDF 0 1 x) (G := fun x => x ^ k)
    (fun x hx => by
      show (x - 0) ^ k * uniformPDF 0 1 x = x ^ k
      rw [uniformPDF, if_pos ⟨hx.1.le, hx.2.le⟩]; simp)
    (fun x hx => by
      show (x - 0) ^ k * uniformPDF 0 1 x = 0
      rw [uniformPDF, if_neg (by rintro ⟨h1, h2⟩; rcases hx with h | h <;> linarith)]; simp)
    (Continuous.intervalIntegrable (by fun_prop) _ _)
  refine ⟨this.1, this.2.trans ?_⟩
  rw [integral_pow]; simp

theorem std_uniform_mean : HasMean (uniformPDF 0 1) (1 / 2) := by
  rw [hasMean_iff_raw]; exact (std_uniform_raw 1).congr_val (by norm_num)

theorem std_uniform_entropy : HasEntropy (uniformPDF 0 1) 0 := by
  have : (fun x => uniformPDF 0 1 x * Real.log (uniformPDF 0 1 x)) = fun _ => 0 := by
    ext x; unfold uniformPDF; split_ifs <;> simp
  unfold HasEntropy; rw [this]; simp

theorem uniform_moments (a : ℝ) {w : ℝ} (hw : 0 < w) :
    HasMeanVar (uniformPDF a (a + w)) (a + w / 2) (w ^ 2 / 12) ∧
    HasCentral (uniformPDF a (a + w)) (a + w / 2) 3 0 ∧
    HasCentral (uniformPDF a (a + w)) (a + w / 2) 4 (9 / 5 * (w ^ 2 / 12) ^ 2) ∧
    HasEntropy (uniformPDF a (a + w)) (Real.log w) := by
  obtain ⟨_, hd⟩ := std_uniform_density
  rw [uniform_locScale hw]
  have em : a + w / 2 = a + w * (1 / 2) := by ring
  have h2 := std_uniform_raw 2
  have h3 := std_uniform_raw 3
  have h4 := std_uniform_raw 4
  have h1 := std_uniform_mean
  rw [em]
  refine ⟨⟨locScale_mean hw hd h1, ?_⟩, ?_, ?_, ?_⟩
  · exact (locScale_central hw (central2 hd.integrable hd.total h1 h2)).congr_val (by push_cast; ring)
  · exact (locScale_central hw (central3 hd.integrable hd.total h1 h2 h3)).congr_val (by push_cast; ring)
  · exact (locScale_central hw (central4 hd.integrable hd.total h1 h2 h3 h4)).congr_val (by push_cast; ring)
  · simpa using locScale_entropy (m := a) hw hd std_uniform_entropy

end Rstat.Spec

namespace Rstat.Spec
open Finset

theorem uniformD_sum (a : ℤ) (w : ℕ) (g : ℤ → ℝ) :
    HasSum (fun k => g k * uniformPMF a (a + w) k) (∑ i ∈ range (w + 1), g (a + i) * (1 / ((w : ℝ) + 1))) := by
  have h := hasSum_sum_of_ne_finset_zero (L := SummationFilter.unconditional ℤ) (f := fun k => g k * uniformPMF a (a + w) k) (s := (range (w + 1)).image fun i : ℕ => a + i)
    (fun k hk => by
      have : ¬ (a ≤ k ∧ k ≤ a + w) := by
        rintro ⟨h1, h2⟩
        refine hk (mem_image.2 ⟨(k - a).toNat, mem_range.2 (by omega), by omega⟩)
      show g k * uniformPMF a (a + w) k = 0
      rw [uniformPMF, if_neg this, mul_zero])
  rw [sum_image (fun i _ j _ h => by simpa using h)] at h
  refine hasSum_congr2 h (fun _ => rfl) (Eq.symm ?_)
  refine Finset.sum_congr rfl fun i hi => ?_
  rw [uniformPMF, if_pos ⟨by omega, by have := mem_range.1 hi; omega⟩]
  push_cast; ring

end Rstat.Spec

namespace Rstat.Spec
open Finset
theorem psum1 (c : ℝ) (n : ℕ) : ∑ i ∈ range n, ((i : ℝ) - c) = n * (n - 1) / 2 - c * n := by
  induction n with
  | zero => simp
  | succ n ih => rw [sum_range_succ, ih]; push_cast; ring
theorem psum2 (c : ℝ) (n : ℕ) :
    ∑ i ∈ range n, ((i : ℝ) - c) ^ 2 = n * (n - 1) * (2 * n - 1) / 6 - c * n * (n - 1) + n * c ^ 2 := by
  induction n with
  | zero => simp
  | succ n ih => rw [sum_range_succ, ih]; push_cast; ring
theorem psum3 (c : ℝ) (n : ℕ) :
    ∑ i ∈ range n, ((i : ℝ) - c) ^ 3 = (n * (n - 1) / 2) ^ 2 - c * n * (n - 1) * (2 * n - 1) / 2 +
      3 * c ^ 2 * n * (n - 1) / 2 - n * c ^ 3 := by
  induction n with
  | zero => simp
  | succ n ih => rw [sum_range_succ, ih]; push_cast; ring
theorem psum4 (c : ℝ) (n : ℕ) :
    ∑ i ∈ range n, ((i : ℝ) - c) ^ 4 = n * (n - 1) * (2 * n - 1) * (3 * n ^ 2 - 3 * n - 1) / 30 -
      4 * c * (n * (n - 1) / 2) ^ 2 + c ^ 2 * n * (n - 1) * (2 * n - 1) -
      2 * c ^ 3 * n * (n - 1) + n * c ^ 4 := by
  induction n with
  | zero => simp
  | succ n ih => rw [sum_range_succ, ih]; push_cast; ring

open Classical in
theorem uniformD_median (a : ℤ) (w : ℕ) : IsMedianD (uniformPMF a (a + w)) (fun k => (k : ℝ)) (a + w / 2) := by
  have hA := uniformD_sum a w fun k => if (k : ℝ) ≤ a + w / 2 then 1 else 0
  have hB := uniformD_sum a w fun k => if (a : ℝ) + w / 2 ≤ k then 1 else 0
  set A := ∑ i ∈ range (w + 1), (if ((a + (i : ℤ) : ℤ) : ℝ) ≤ a + w / 2 then (1:ℝ) else 0) * (1 / ((w : ℝ) + 1)) with eA
  set B := ∑ i ∈ range (w + 1), (if (a : ℝ) + w / 2 ≤ ((a + (i : ℤ) : ℤ) : ℝ) then (1:ℝ) else 0) * (1 / ((w : ℝ) + 1)) with eB
  have hAB : A = B := by
    rw [eA, ← Finset.sum_range_reflect, eB]
    refine Finset.sum_congr rfl fun i hi => ?_
    have hi : i ≤ w := by have := mem_range.1 hi; omega
    have : ((w - i : ℕ) : ℝ) = w - i := Nat.cast_sub hi
    push_cast
    rw [this]
    congr 1
    refine if_congr ?_ rfl rfl
    constructor <;> intro h <;> linarith
  have hsum : 1 ≤ A + B := by
    rw [eA, eB, ← Finset.sum_add_distrib]
    calc (1:ℝ) = ∑ i ∈ range (w + 1), 1 / ((w : ℝ) + 1) := by rw [sum_const, card_range]; simp; field_simp
      _ ≤ _ := Finset.sum_le_sum fun i _ => by
        rw [← add_mul]
        refine le_mul_of_one_le_left (by positivity) ?_
        by_cases h : ((a + (i : ℤ) : ℤ) : ℝ) ≤ a + w / 2
        · rw [if_pos h]; split_ifs <;> norm_num
        · rw [if_neg h, if_pos (by linarith)]; norm_num
  refine ⟨A, B, hasSum_congr2 hA (fun k => ?_) rfl, hasSum_congr2 hB (fun k => ?_) rfl, by linarith, by linarith⟩
  · simp only [Set.indicator, Set.mem_setOf_eq]; split_ifs <;> simp
  · simp only [Set.indicator, Set.mem_setOf_eq]; split_ifs <;> simp

theorem uniformD_pmf (a : ℤ) (w : ℕ) : IsPMF (uniformPMF a (a + w)) := by
  refine ⟨fun k => ?_, ?_⟩
  · unfold uniformPMF; split_ifs
    · have : ((a + (w : ℤ) - a : ℤ) : ℝ) = w := by push_cast; ring
      rw [this]; positivity
    · exact le_rfl
  · refine hasSum_congr2 (uniformD_sum a w fun _ => 1) (fun k => by rw [one_mul]) ?_
    rw [sum_const, card_range]; simp; field_simp

theorem uniformD_central (a : ℤ) (w : ℕ) (m : ℝ) (k : ℕ) : HasCentralD (uniformPMF a (a + w)) (fun k => (k : ℝ)) m k
    ((∑ i ∈ range (w + 1), ((i : ℝ) - (m - a)) ^ k) / (w + 1)) := by
  refine hasSum_congr2 (uniformD_sum a w fun j => ((j : ℝ) - m) ^ k) (fun k => rfl) ?_
  rw [sum_div]
  refine sum_congr rfl fun i _ => ?_
  push_cast
  rw [show (a : ℝ) + i - m = i - (m - a) by ring]; ring

theorem uniformD_moments (a : ℤ) (w : ℕ) (hw : 0 < w) :
    HasMeanVarD (uniformPMF a (a + w)) (fun k => (k : ℝ)) (a + w / 2) ((((w : ℝ) + 1) ^ 2 - 1) / 12) ∧
    HasSkewD (uniformPMF a (a + w)) (fun k => (k : ℝ)) 0 ∧
    HasKurtD (uniformPMF a (a + w)) (fun k => (k : ℝ))
      (3 + -(6 / 5) * (((w : ℝ) + 1) ^ 2 + 1) / (((w : ℝ) + 1) ^ 2 - 1)) ∧
    HasEntropyD (uniformPMF a (a + w)) (Real.log (w + 1)) := by
  have hw' : (0 : ℝ) < w := by exact_mod_cast hw
  have e0 : ((a : ℝ) + w / 2 - a) = w / 2 := by ring
  have hn : ((w : ℝ) + 1) ≠ 0 := by positivity
  have hn2 : ((w : ℝ) + 1) ^ 2 - 1 ≠ 0 := by
    have : ((w : ℝ) + 1) ^ 2 - 1 = w ^ 2 + 2 * w := by ring
    rw [this]; positivity
  have mv : HasMeanVarD (uniformPMF a (a + w)) (fun k => (k : ℝ)) (a + w / 2) ((((w : ℝ) + 1) ^ 2 - 1) / 12) := by
    constructor
    · refine hasSum_congr2 (uniformD_sum a w fun j => (j : ℝ)) (fun k => rfl) ?_
      rw [← sum_mul]
      have : ∑ i ∈ range (w + 1), ((a + (i : ℤ) : ℤ) : ℝ) = ∑ i ∈ range (w + 1), ((i : ℝ) - (-a)) :=
        sum_congr rfl fun i _ => by push_cast; ring
      rw [this, psum1]; push_cast; field_simp; ring
    · refine (uniformD_central a w _ 2).congr_val ?_
      rw [e0, psum2]; push_cast; field_simp; ring
  have hv : 0 < (((w : ℝ) + 1) ^ 2 - 1) / 12 := by
    have : ((w : ℝ) + 1) ^ 2 - 1 = w ^ 2 + 2 * w := by ring
    rw [this]; positivity
  refine ⟨mv, ⟨_, _, hv, mv, ?_⟩, ⟨_, _, hv, mv, ?_⟩, ?_⟩
  · refine (uniformD_central a w _ 3).congr_val ?_
    rw [e0, psum3]; push_cast; field_simp; ring
  · refine (uniformD_central a w _ 4).congr_val ?_
    rw [e0, psum4]; push_cast; field_simp; ring
  · refine hasSum_congr2 ((uniformD_pmf a w).2.mul_left (Real.log (w + 1))) (fun k => ?_) (by ring)
    unfold uniformPMF
    split_ifs
    · have : ((a + (w : ℤ) - a : ℤ) : ℝ) = w := by push_cast; ring
      rw [this, one_div, Real.log_inv]; ring
    · simp

theorem uniformD_cdf (a : ℤ) (w : ℕ) :
    IsCDFOfPMF (uniformPMF a (a + w))
      (fun k => if k < a then 0 else if a + w ≤ k then 1 else ((k - a : ℤ) + 1 : ℝ) / (w + 1)) := by
  intro k
  refine (hasSum_subtype_iff_indicator (f := uniformPMF a (a + w)) (s := Set.Iic k)).2 ?_
  have h := uniformD_sum a w (fun j => if j ≤ k then 1 else 0)
  refine hasSum_congr2 h (fun j => ?_) ?_
  · by_cases hj : j ≤ k
    · rw [Set.indicator_of_mem (by exact hj), if_pos hj, one_mul]
    · rw [Set.indicator_of_notMem (by exact hj), if_neg hj, zero_mul]
  · rw [← sum_mul]
    dsimp only
    split_ifs with h1 h2
    · rw [sum_eq_zero, zero_mul]
      intro i _; rw [if_neg (by omega)]
    · rw [sum_congr rfl (g := fun _ => (1 : ℝ)) (fun i hi => if_pos (by have := mem_range.1 hi; omega)), sum_const, card_range]
      simp; field_simp
    · have hk : ∃ t : ℕ, k = a + t ∧ t < w := ⟨(k - a).toNat, by omega, by omega⟩
      obtain ⟨t, rfl, ht⟩ := hk
      have : ∑ i ∈ range (w + 1), (if a + (i : ℤ) ≤ a + t then (1 : ℝ) else 0) = t + 1 := by
        rw [← sum_filter]
        have : (range (w + 1)).filter (fun i : ℕ => a + (i : ℤ) ≤ a + t) = range (t + 1) := by
          ext i; simp only [mem_filter, mem_range]; omega
        rw [this, sum_const, card_range]; simp
      rw [this]; push_cast; ring

end Rstat.Spec
