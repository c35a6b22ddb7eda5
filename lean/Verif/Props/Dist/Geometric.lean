import Verif.Model.Dist.Geometric
import Verif.Lemmas.Dist.Discrete
import Verif.Lemmas.Constraints
import Verif.Lemmas.DistBase
import Verif.Lemmas.Consts
import Mathlib.Analysis.Complex.ExponentialBounds

/-! Properties C90, C123, C124, C126: the geometric law. -/
set_option linter.unusedSectionVars false
namespace Rstat
open F64 Spec

theorem Geometric.new_ok [FP] {a : F64} {d : Geometric} :
    Geometric.new a = .ok d ↔ (0 ≤ a ∧ a ≤ 1) ∧ d = ⟨⟨a⟩, ⟨1 - a⟩⟩ := by
  simp only [Geometric.new, exc_bind_ok, Probability.newE_ok]
  constructor
  · rintro ⟨_, ⟨h0, rfl⟩, h⟩; exact ⟨h0, by cases h; rfl⟩
  · rintro ⟨h0, rfl⟩; exact ⟨_, ⟨h0, rfl⟩, rfl⟩

theorem geom_wrap_small {k : ℕ} (h : k < 2 ^ 31) : i32wrap k = k := by unfold i32wrap; omega
theorem geom_wrap_big {k : ℕ} (h1 : 2 ^ 31 ≤ k) (h2 : k < 2 ^ 32) : i32wrap k = -((2 ^ 32 - k : ℕ) : ℤ) := by
  unfold i32wrap; omega

theorem hasSum_ind_lt (f : ℕ → ℝ) (N : ℕ) : HasSum (Set.indicator {k | k < N} f) (∑ k ∈ Finset.range N, f k) := by
  refine hasSum_congr2 (hasSum_sum_of_ne_finset_zero (f := Set.indicator {k | k < N} f) (s := Finset.range N) ?_)
    (fun _ => rfl) ?_
  · intro k hk; exact Set.indicator_of_notMem (by simpa using hk) _
  · exact Finset.sum_congr rfl fun k hk => (Set.indicator_of_mem (show k ∈ {k | k < N} from Finset.mem_range.1 hk) f).symm

theorem hasSum_ind_ge {f : ℕ → ℝ} {t : ℝ} (hf : HasSum f t) (N : ℕ) :
    HasSum (Set.indicator {k | N ≤ k} f) (t - ∑ k ∈ Finset.range N, f k) := by
  refine hasSum_congr2 (hf.sub (hasSum_ind_lt f N)) (fun k => ?_) rfl
  by_cases h : N ≤ k
  · rw [Set.indicator_of_mem (show k ∈ {k | N ≤ k} from h), Set.indicator_of_notMem (by simpa using h), sub_zero]
  · rw [Set.indicator_of_notMem (show k ∉ {k | N ≤ k} from h), Set.indicator_of_mem (by simpa using h), sub_self]

/-- medians of an ℕ-valued law, in terms of partial sums -/
theorem medianD_nat {f : ℕ → ℝ} (hf : HasSum f 1) {m : ℝ} (hm : 0 ≤ m) :
    IsMedianD f (fun k : ℕ => (k : ℝ)) m ↔ 1 / 2 ≤ ∑ k ∈ Finset.range (⌊m⌋₊ + 1), f k ∧
      1 / 2 ≤ 1 - ∑ k ∈ Finset.range ⌈m⌉₊, f k := by
  have e1 : {x : ℕ | (x : ℝ) ≤ m} = {k | k < ⌊m⌋₊ + 1} := by
    ext k; simp only [Set.mem_ofPred_eq, Nat.lt_succ_iff]; exact (Nat.le_floor_iff hm).symm
  have e2 : {x : ℕ | m ≤ (x : ℝ)} = {k | ⌈m⌉₊ ≤ k} := by
    ext k; simp only [Set.mem_ofPred_eq]; exact Nat.ceil_le.symm
  unfold IsMedianD
  rw [e1, e2]
  constructor
  · rintro ⟨a, b, ha, hb, h1, h2⟩
    rw [ha.unique (hasSum_ind_lt f _)] at h1
    rw [hb.unique (hasSum_ind_ge hf _)] at h2
    exact ⟨h1, h2⟩
  · rintro ⟨h1, h2⟩
    exact ⟨_, _, hasSum_ind_lt f _, hasSum_ind_ge hf _, h1, h2⟩

/-- a negative number is never a median of an ℕ-valued law -/
theorem not_medianD_neg {f : ℕ → ℝ} {m : ℝ} (hm : m < 0) : ¬ IsMedianD f (fun k : ℕ => (k : ℝ)) m := by
  rintro ⟨a, b, ha, _, h1, _⟩
  have e1 : {x : ℕ | (x : ℝ) ≤ m} = ∅ := by
    ext k; simp only [Set.mem_ofPred_eq, Set.mem_empty_iff_false, iff_false, not_le]
    exact lt_of_lt_of_le hm (Nat.cast_nonneg k)
  rw [e1, Set.indicator_empty] at ha
  rw [ha.unique hasSum_zero] at h1
  norm_num at h1

section
variable [FP] [FP.Exact] {a : F64} {p : ℝ} {d : Geometric}

theorem Geometric.range (h : Geometric.new a = .ok d) (ha : a.Is p) : 0 ≤ p ∧ p ≤ 1 := by
  obtain ⟨h0, rfl⟩ := Geometric.new_ok.1 h
  exact ⟨(Is.zero.le_iff ha).1 h0.1, (ha.le_iff Is.one).1 h0.2⟩
theorem Geometric.pq (h : Geometric.new a = .ok d) (ha : a.Is p) : d.p.val.Is p ∧ d.q.val.Is (1 - p) := by
  obtain ⟨_, rfl⟩ := Geometric.new_ok.1 h
  exact ⟨ha, Is.one.sub ha⟩

/-- C90 (what holds): for every accepted p > 0 the law is geometric, with the right mean and variance; `pmf(k)` is right
for k < 2^31 and `cdf(k)` for k < 2^31 - 1, without panic in either build, and they are valid probabilities. Missing:
larger k (see `C90_geometric_cdf_violated`) and p = 0 (see C126). -/
theorem C90_geometric_partial (h : Geometric.new a = .ok d) (ha : a.Is p) (h0 : 0 < p) :
    p ≤ 1 ∧ IsPMF (geomPMF p) ∧
    (∀ k, k < 2 ^ 31 → (d.pmf k).val.Is (geomPMF p k) ∧ (d.pmf k).isValid) ∧
    (∃ F, IsCDFOfPMF (geomPMF p) F ∧
      ∀ pr k, k < 2 ^ 31 - 1 → ∃ r, d.cdf pr k = .ok r ∧ r.val.Is (F k) ∧ r.isValid) ∧
    (∃ m v, d.mean.Is m ∧ d.variance.Is v ∧ HasMeanVarD (geomPMF p) (fun k => (k : ℝ)) m v) := by
  obtain ⟨_, h1⟩ := Geometric.range h ha
  obtain ⟨hp, hq⟩ := Geometric.pq h ha
  have hq0 : 0 ≤ 1 - p := by linarith
  refine ⟨h1, geom_pmf h0 h1, fun k hk => ?_, ⟨_, geom_cdf, fun pr k hk => ?_⟩, _, _, ?_, ?_, geom_meanVar h0 h1⟩
  · have : (d.pmf k).val.Is (geomPMF p k) := by
      show (d.p.val * d.q.val.powi (i32wrap k)).Is _
      rw [geom_wrap_small hk]; exact hp.mul (hq.powi k)
    refine ⟨this, (this.le_iff Is.one).2 ?_, (Is.zero.le_iff this).2 (geom_nonneg h0.le h1 k)⟩
    unfold geomPMF
    calc p * (1 - p) ^ k ≤ 1 * 1 := mul_le_mul h1 (pow_le_one₀ hq0 (by linarith)) (by positivity) (by norm_num)
      _ = 1 := by norm_num
  · have hc : i32chk pr (i32wrap k + 1) = .ok ((k + 1 : ℕ) : ℤ) := by
      rw [geom_wrap_small (by omega)]; unfold i32chk; rw [if_pos (by omega)]; push_cast; rfl
    have hv : (1 - d.q.val.powi ((k + 1 : ℕ) : ℤ)).Is (1 - (1 - p) ^ (k + 1)) := Is.one.sub (hq.powi (k + 1))
    refine ⟨_, by unfold Geometric.cdf; rw [hc]; rfl, hv, (hv.le_iff Is.one).2 ?_, (Is.zero.le_iff hv).2 ?_⟩
    · have : 0 ≤ (1 - p) ^ (k + 1) := by positivity
      linarith
    · have : (1 - p) ^ (k + 1) ≤ 1 := pow_le_one₀ hq0 (by linarith)
      linarith
  · exact hq.div hp h0.ne'
  · refine Is.congr ((hq.div hp h0.ne').div hp h0.ne') ?_
    field_simp

/-- C90 (violated): for every p in (0,1) and every k with 2^31 - 1 ≤ k < 2^32 - 1, `cdf(k)` is not the distribution
function: it panics at k = 2^31 - 1 in a debug build and otherwise returns a negative number. -/
theorem C90_geometric_cdf_violated (h : Geometric.new a = .ok d) (ha : a.Is p) (h0 : 0 < p) (h1 : p < 1) {k : ℕ}
    (hk1 : 2 ^ 31 - 1 ≤ k) (hk2 : k < 2 ^ 32 - 1) (pr : Profile) :
    (d.cdf pr k = .error .overflow ∧ pr = .debug ∧ k = 2 ^ 31 - 1) ∨
    ∃ r x, d.cdf pr k = .ok r ∧ r.val.Is x ∧ x < 0 ∧ ¬ r.isValid ∧
      0 < ∑ j ∈ Finset.range (k + 1), geomPMF p j := by
  obtain ⟨hp, hq⟩ := Geometric.pq h ha
  have hq0 : 0 < 1 - p := by linarith
  have hpos : 0 < ∑ j ∈ Finset.range (k + 1), geomPMF p j :=
    Finset.sum_pos (fun j _ => by unfold geomPMF; positivity) ⟨0, by simp⟩
  have key : ∀ n : ℕ, 0 < n → i32chk pr (i32wrap k + 1) = .ok (-(n : ℤ)) →
      ∃ r x, d.cdf pr k = .ok r ∧ r.val.Is x ∧ x < 0 ∧ ¬ r.isValid ∧ 0 < ∑ j ∈ Finset.range (k + 1), geomPMF p j := by
    intro n hn hc
    have hv : (1 - d.q.val.powi (-(n : ℤ))).Is (1 - ((1 - p) ^ n)⁻¹) := Is.one.sub (hq.powi_neg hq0.ne' n hn)
    have hneg : 1 - ((1 - p) ^ n)⁻¹ < 0 := by
      have : (1 - p) ^ n < 1 := pow_lt_one₀ hq0.le (by linarith) hn.ne'
      have := (one_lt_inv₀ (pow_pos hq0 n)).2 this
      linarith
    refine ⟨_, _, by unfold Geometric.cdf; rw [hc]; rfl, hv, hneg, fun hval => ?_, hpos⟩
    exact absurd ((Is.zero.le_iff hv).1 hval.2) (not_le.2 hneg)
  rcases hk1.eq_or_lt with he | hlt
  · have e : i32wrap k + 1 = 2 ^ 31 := by rw [geom_wrap_small (by omega)]; omega
    cases pr with
    | debug =>
      left
      refine ⟨?_, rfl, he.symm⟩
      unfold Geometric.cdf
      rw [e, show i32chk .debug (2 ^ 31) = .error .overflow from by unfold i32chk; rw [if_neg (by norm_num)]]
      rfl
    | release =>
      right
      refine key (2 ^ 31) (by norm_num) ?_
      rw [e]; unfold i32chk i32wrap; rw [if_neg (by norm_num)]; norm_num
  · right
    refine key (2 ^ 32 - 1 - k) (by omega) ?_
    rw [geom_wrap_big (by omega) (by omega)]
    unfold i32chk
    rw [if_pos (by omega)]
    congr 1; omega

/-- C90 (violated): for every p in (0,1) and 2^31 ≤ k < 2^32, `pmf(k)` is not the mass at k (it exceeds p, the largest
mass of the law). -/
theorem C90_geometric_pmf_violated (h : Geometric.new a = .ok d) (ha : a.Is p) (h0 : 0 < p) (h1 : p < 1) {k : ℕ}
    (hk1 : 2 ^ 31 ≤ k) (hk2 : k < 2 ^ 32) :
    ∃ x, (d.pmf k).val.Is x ∧ p < x ∧ geomPMF p k < p := by
  obtain ⟨hp, hq⟩ := Geometric.pq h ha
  have hq0 : 0 < 1 - p := by linarith
  refine ⟨p * ((1 - p) ^ (2 ^ 32 - k))⁻¹, ?_, ?_, ?_⟩
  · show (d.p.val * d.q.val.powi (i32wrap k)).Is _
    rw [geom_wrap_big hk1 hk2]
    exact hp.mul (hq.powi_neg hq0.ne' _ (by omega))
  · have : (1 - p) ^ (2 ^ 32 - k) < 1 := pow_lt_one₀ hq0.le (by linarith) (by omega)
    have := (one_lt_inv₀ (pow_pos hq0 _)).2 this
    exact (lt_mul_iff_one_lt_right h0).2 this
  · have : (1 - p) ^ k < 1 := pow_lt_one₀ hq0.le (by linarith) (by omega)
    unfold geomPMF
    exact (mul_lt_iff_lt_one_right h0).2 this

/-- C123: skewness, (excess) kurtosis and mode of the geometric law. -/
theorem C123_geometric_shape (h : Geometric.new a = .ok d) (ha : a.Is p) (h0 : 0 < p) (h1 : p < 1) :
    (∃ s, d.skewness.Is s ∧ HasSkewD (geomPMF p) (fun k => (k : ℝ)) s) ∧
    (∃ κ, d.kurtosis.Is κ ∧ d.excessKurtosis.Is (κ - 3) ∧ HasKurtD (geomPMF p) (fun k => (k : ℝ)) κ) ∧
    (∀ k, k ∈ d.modes ↔ IsModeD (geomPMF p) k) := by
  obtain ⟨hp, hq⟩ := Geometric.pq h ha
  have hq0 : 0 < 1 - p := by linarith
  have hex : d.excessKurtosis.Is (9 + p ^ 2 / (1 - p) - 3) := by
    unfold Geometric.excessKurtosis Geometric.variance
    refine Is.congr ((Is.num 6).add (Is.one.div ((hq.div hp h0.ne').div hp h0.ne') (by positivity))) ?_
    push_cast; field_simp; ring
  refine ⟨⟨_, ?_, geom_skew h0 h1⟩, ⟨_, ?_, hex, geom_kurt h0 h1⟩, fun k => ?_⟩
  · unfold Geometric.skewness
    exact ((Is.num 2).sub hp).div (hq.sqrt hq0.le) (Real.sqrt_pos.2 hq0).ne'
  · unfold Geometric.kurtosis
    exact Is.congr (hex.add (Is.num 3)) (by norm_num)
  · have hmono : ∀ j, geomPMF p j ≤ geomPMF p 0 := fun j => by
      unfold geomPMF
      exact mul_le_mul_of_nonneg_left (by simpa using pow_le_one₀ hq0.le (by linarith)) h0.le
    constructor
    · intro hk
      rw [show k = 0 by simpa [Geometric.modes] using hk]; exact hmono
    · intro hk
      have := hk 0
      by_contra hc
      have hk0 : k ≠ 0 := by simpa [Geometric.modes] using hc
      have h2 : (1 - p) ^ k < 1 := pow_lt_one₀ hq0.le (by linarith) hk0
      unfold geomPMF at this
      rw [pow_zero] at this
      nlinarith

theorem Geometric.median_is (h : Geometric.new a = .ok d) (ha : a.Is p) (h0 : 0 < p) (h1 : p < 1) :
    d.median.Is (-1 / Real.logb 2 (1 - p) - 1) := by
  obtain ⟨hp, hq⟩ := Geometric.pq h ha
  have hq0 : 0 < 1 - p := by linarith
  have hl : Real.logb 2 (1 - p) < 0 := Real.logb_neg (by norm_num) hq0 (by linarith)
  unfold Geometric.median Probability.log2
  exact ((Is.one.neg).div (hq.log2 hq0) hl.ne).sub Is.one

/-- C124 (violated): the median returned is a median of the law only in the exceptional case where some power of
1 - p is exactly 1/2. -/
theorem C124_geometric_median_violated (h : Geometric.new a = .ok d) (ha : a.Is p) (h0 : 0 < p) (h1 : p < 1) :
    ∃ m, d.median.Is m ∧ (IsMedianD (geomPMF p) (fun k => (k : ℝ)) m ↔ ∃ n : ℕ, (1 - p) ^ n = 1 / 2) ∧
      (1 / 2 < p → m < 0) := by
  have hq0 : 0 < 1 - p := by linarith
  have hl : Real.logb 2 (1 - p) < 0 := Real.logb_neg (by norm_num) hq0 (by linarith)
  set t := -1 / Real.logb 2 (1 - p) with ht
  have ht0 : 0 < t := div_pos_of_neg_of_neg (by norm_num) hl
  have hqt : (1 - p) ^ t = 1 / 2 := by
    rw [Real.rpow_def_of_pos hq0, ht, Real.logb, show Real.log (1 - p) * (-1 / (Real.log (1 - p) / Real.log 2)) = -Real.log 2 by
      have : Real.log (1 - p) ≠ 0 := (Real.log_neg hq0 (by linarith)).ne
      have : Real.log 2 ≠ 0 := (Real.log_pos (by norm_num)).ne'
      field_simp]
    rw [Real.exp_neg, Real.exp_log (by norm_num)]; norm_num
  have anti : ∀ x y : ℝ, (1 - p) ^ x ≤ (1 - p) ^ y ↔ y ≤ x := fun x y =>
    Real.rpow_le_rpow_left_iff_of_base_lt_one hq0 (by linarith)
  refine ⟨t - 1, Geometric.median_is h ha h0 h1, ?_, ?_⟩
  · rcases lt_or_ge (t - 1) 0 with hneg | hnn
    · refine ⟨fun hm => absurd hm (not_medianD_neg hneg), ?_⟩
      rintro ⟨n, hn⟩
      exfalso
      rw [← hqt, ← Real.rpow_natCast] at hn
      have h2 : (n : ℝ) = t := le_antisymm ((anti _ _).1 hn.ge) ((anti _ _).1 hn.le)
      have h3 : n < 1 := by exact_mod_cast (show (n : ℝ) < 1 by linarith)
      have h4 : n = 0 := by omega
      rw [h4] at h2; simp at h2; linarith
    · rw [medianD_nat (geom_one h0 h1.le) hnn, geom_partial, geom_partial]
      constructor
      · rintro ⟨h2, _⟩
        have hfl : ((⌊t - 1⌋₊ + 1 : ℕ) : ℝ) ≤ t := by
          have := Nat.floor_le hnn; push_cast; linarith
        have h3 : (1 - p) ^ (((⌊t - 1⌋₊ + 1 : ℕ) : ℝ)) ≤ (1 - p) ^ t := by
          rw [hqt, Real.rpow_natCast]; linarith
        have h4 := (anti _ _).1 h3
        refine ⟨⌊t - 1⌋₊ + 1, ?_⟩
        rw [← Real.rpow_natCast, le_antisymm hfl h4, hqt]
      · rintro ⟨n, hn⟩
        have hn' := hn
        rw [← hqt, ← Real.rpow_natCast] at hn
        have h2 : (n : ℝ) = t := le_antisymm ((anti _ _).1 hn.ge) ((anti _ _).1 hn.le)
        have hn1 : 1 ≤ n := by exact_mod_cast (show (1:ℝ) ≤ n by linarith)
        obtain ⟨j, rfl⟩ := Nat.exists_eq_add_of_le' hn1
        have h3 : t - 1 = (j : ℝ) := by rw [← h2]; push_cast; ring
        rw [h3, Nat.floor_natCast, Nat.ceil_natCast, hn']
        refine ⟨by norm_num, ?_⟩
        have : (1 - p) ^ (j + 1) ≤ (1 - p) ^ j := pow_le_pow_of_le_one hq0.le (by linarith) (by omega)
        rw [hn'] at this; linarith
  · intro hp
    have : (1 - p) ^ (1:ℝ) ≤ (1 - p) ^ t := by rw [hqt, Real.rpow_one]; linarith
    have h2 := (anti _ _).1 this
    rcases h2.eq_or_lt with h3 | h3
    · rw [h3, Real.rpow_one] at hqt; linarith
    · linarith

/-- C124 (what holds): rounding the returned value up gives a median, so the answer is less than 1 too small. -/
theorem C124_geometric_median_partial (h : Geometric.new a = .ok d) (ha : a.Is p) (h0 : 0 < p) (h1 : p < 1) :
    ∃ m, d.median.Is m ∧ -1 < m ∧ IsMedianD (geomPMF p) (fun k => (k : ℝ)) ⌈m⌉ := by
  have hq0 : 0 < 1 - p := by linarith
  have hl : Real.logb 2 (1 - p) < 0 := Real.logb_neg (by norm_num) hq0 (by linarith)
  set t := -1 / Real.logb 2 (1 - p) with ht
  have ht0 : 0 < t := div_pos_of_neg_of_neg (by norm_num) hl
  have hqt : (1 - p) ^ t = 1 / 2 := by
    rw [Real.rpow_def_of_pos hq0, ht, Real.logb, show Real.log (1 - p) * (-1 / (Real.log (1 - p) / Real.log 2)) = -Real.log 2 by
      have : Real.log (1 - p) ≠ 0 := (Real.log_neg hq0 (by linarith)).ne
      have : Real.log 2 ≠ 0 := (Real.log_pos (by norm_num)).ne'
      field_simp]
    rw [Real.exp_neg, Real.exp_log (by norm_num)]; norm_num
  have anti : ∀ x y : ℝ, (1 - p) ^ x ≤ (1 - p) ^ y ↔ y ≤ x := fun x y =>
    Real.rpow_le_rpow_left_iff_of_base_lt_one hq0 (by linarith)
  refine ⟨t - 1, Geometric.median_is h ha h0 h1, by linarith, ?_⟩
  have hc : -1 < ⌈t - 1⌉ := by
    have := Int.le_ceil (t - 1)
    exact_mod_cast (show (-1:ℝ) < ⌈t - 1⌉ by linarith)
  obtain ⟨j, hj⟩ := Int.eq_ofNat_of_zero_le (show 0 ≤ ⌈t - 1⌉ by omega)
  rw [hj]
  have hj1 : t - 1 ≤ j := by have := Int.le_ceil (t - 1); rw [hj] at this; exact_mod_cast this
  have hj2 : (j : ℝ) < t := by
    have := Int.ceil_lt_add_one (t - 1); rw [hj] at this
    have h3 : ((j : ℤ) : ℝ) = (j : ℝ) := by norm_cast
    rw [h3] at this; linarith
  rw [Int.cast_natCast, medianD_nat (geom_one h0 h1.le) (Nat.cast_nonneg j), Nat.floor_natCast, Nat.ceil_natCast,
    geom_partial, geom_partial]
  constructor
  · have : (1 - p) ^ ((j + 1 : ℕ) : ℝ) ≤ (1 - p) ^ t := (anti _ _).2 (by push_cast; linarith)
    rw [hqt, Real.rpow_natCast] at this; linarith
  · have : (1 - p) ^ t ≤ (1 - p) ^ (j : ℝ) := (anti _ _).2 hj2.le
    rw [hqt, Real.rpow_natCast] at this; linarith

/-- C124 (violated): `shannon_entropy()` is not the entropy in nats for any p in (0,1) (every other law of the crate
reports nats), and is NaN at p = 1, where the entropy is 0. -/
theorem C124_geometric_entropy_violated (h : Geometric.new a = .ok d) (ha : a.Is p) (h0 : 0 < p) :
    (p < 1 → ∃ e, HasEntropyD (geomPMF p) e ∧ ¬ d.shannonEntropy.Is e) ∧
    (p = 1 → d.shannonEntropy = nan ∧ HasEntropyD (geomPMF p) 0) := by
  obtain ⟨hp, hq⟩ := Geometric.pq h ha
  constructor
  · intro h1
    have hq0 : 0 < 1 - p := by linarith
    refine ⟨_, geom_entropy h0 h1, fun hc => ?_⟩
    have he : d.shannonEntropy.Is ((-(1 - p) * Real.logb 2 (1 - p) - p * Real.logb 2 p) / p) := by
      unfold Geometric.shannonEntropy
      exact ((hq.neg.mul (hq.log2 hq0)).sub (hp.mul (hp.log2 h0))).div hp h0.ne'
    have h2 := hc.eq he
    have a1 : Real.log p < 0 := Real.log_neg h0 h1
    have a2 : Real.log (1 - p) < 0 := Real.log_neg hq0 (by linarith)
    have hpos : 0 < -(1 - p) * Real.log (1 - p) - p * Real.log p := by nlinarith
    have l2 := Real.log_two_lt_d9
    have l2' := Real.log_two_gt_d9
    have h3 : (-(1 - p) * Real.logb 2 (1 - p) - p * Real.logb 2 p) =
        (-(1 - p) * Real.log (1 - p) - p * Real.log p) / Real.log 2 := by unfold Real.logb; ring
    rw [h3] at h2
    generalize -(1 - p) * Real.log (1 - p) - p * Real.log p = E at *
    have hlp : 0 < Real.log 2 := by linarith
    rw [div_div, div_eq_div_iff h0.ne' (by positivity)] at h2
    have : E * p * (Real.log 2 - 1) = 0 := by linear_combination h2
    rcases mul_eq_zero.1 this with h4 | h4
    · exact absurd h4 (by positivity)
    · linarith
  · rintro rfl
    constructor
    · have hz : d.q.val.Is 0 := hq.congr (by norm_num)
      unfold Geometric.shannonEntropy
      have hl : d.q.val.log2 = ninf := by
        rcases hz with he | ⟨he, _⟩
        · rw [he]; exact if_pos rfl
        · rw [he]; rfl
      have hm : (-d.q.val) * ninf = nan := by
        rcases hz with he | ⟨he, _⟩ <;> rw [he] <;> show F64.mul _ _ = nan
        · show F64.mul (F64.neg (fin 0)) ninf = nan
          simp [F64.neg, F64.mul, F64.isInf, F64.isFinite, F64.toReal]
        · show F64.mul (F64.neg negZero) ninf = nan
          simp [F64.neg, F64.mul, F64.isInf, F64.isFinite, F64.toReal]
      rw [hl, hm]
      rfl
    · unfold HasEntropyD
      refine hasSum_congr2 hasSum_zero (fun k => ?_) rfl
      cases k <;> simp [geomPMF]

/-- C124 (what holds): for p in (0,1) `shannon_entropy()` is the entropy in bits. -/
theorem C124_geometric_entropy_partial (h : Geometric.new a = .ok d) (ha : a.Is p) (h0 : 0 < p) (h1 : p < 1) :
    ∃ e, HasEntropyD (geomPMF p) e ∧ d.shannonEntropy.Is (e / Real.log 2) := by
  obtain ⟨hp, hq⟩ := Geometric.pq h ha
  have hq0 : 0 < 1 - p := by linarith
  refine ⟨_, geom_entropy h0 h1, ?_⟩
  unfold Geometric.shannonEntropy
  refine Is.congr (((hq.neg.mul (hq.log2 hq0)).sub (hp.mul (hp.log2 h0))).div hp h0.ne') ?_
  unfold Real.logb
  have : Real.log 2 ≠ 0 := (Real.log_pos (by norm_num)).ne'
  field_simp

/-- C126 (violated): p = 0 is accepted, but then every `pmf(k)` is 0 (so the masses sum to 0, not 1), `cdf` is 0
everywhere, and the mean is infinite. -/
theorem C126_geometric_zero_violated (ha : a.Is 0) :
    ∃ d, Geometric.new a = .ok d ∧ (∀ k, (d.pmf k).val.Is 0) ∧
      (∀ k, k < 2 ^ 31 - 1 → ∀ pr, ∃ r, d.cdf pr k = .ok r ∧ r.val.Is 0) ∧ ¬ IsPMF (geomPMF 0) := by
  have hn : Geometric.new a = .ok _ :=
    Geometric.new_ok.2 ⟨⟨(Is.zero.le_iff ha).2 le_rfl, (ha.le_iff Is.one).2 (by norm_num)⟩, rfl⟩
  have hpq := Geometric.pq hn ha
  refine ⟨_, hn, fun k => ?_, fun k hk pr => ?_, fun hpmf => ?_⟩
  · have hw : (Probability.powi ⟨1 - a⟩ (i32wrap k)).Is 1 := by
      have hq : (1 - a).Is 1 := hpq.2.congr (by norm_num)
      show ((1 - a).powi (i32wrap k)).Is 1
      rcases le_or_gt 0 (i32wrap k) with hs | hs
      · obtain ⟨n, hn⟩ := Int.eq_ofNat_of_zero_le hs
        rw [hn]; exact (hq.powi n).congr (one_pow n)
      · obtain ⟨n, hn⟩ := Int.eq_ofNat_of_zero_le (show 0 ≤ -i32wrap k by omega)
        rw [show i32wrap k = -(n : ℤ) by omega]
        exact (hq.powi_neg one_ne_zero n (by omega)).congr (by simp)
    exact (ha.mul hw).congr (by norm_num)
  · have hc : i32chk pr (i32wrap k + 1) = .ok ((k + 1 : ℕ) : ℤ) := by
      rw [geom_wrap_small (by omega)]; unfold i32chk; rw [if_pos (by omega)]; push_cast; rfl
    refine ⟨_, by unfold Geometric.cdf; rw [hc]; rfl, ?_⟩
    exact Is.congr (Is.one.sub (hpq.2.powi (k + 1))) (by simp)
  · have : HasSum (geomPMF 0) 0 := hasSum_congr2 hasSum_zero (fun k => by simp [geomPMF]) rfl
    exact zero_ne_one (this.unique hpmf.2)

/-- C126 (what holds): every accepted p other than 0 defines a law. -/
theorem C126_geometric_zero_partial (h : Geometric.new a = .ok d) (ha : a.Is p) (hp : p ≠ 0) : IsPMF (geomPMF p) := by
  obtain ⟨h0, h1⟩ := Geometric.range h ha
  exact geom_pmf (lt_of_le_of_ne h0 (Ne.symm hp)) h1
end

section
attribute [local instance] exactFP exactFP_exact
theorem geom_example : ∃ d, Geometric.new (fin (1 / 4)) = .ok d :=
  ⟨_, Geometric.new_ok.2 ⟨⟨(Is.zero.le_iff (Is.fin _)).2 (by norm_num), ((Is.fin _).le_iff Is.one).2 (by norm_num)⟩, rfl⟩⟩
example : ∃ d, Geometric.new (fin (1 / 4)) = .ok d ∧ (d.pmf 2).val.Is (9 / 64) ∧
    (∃ r x, d.cdf .release 3000000000 = .ok r ∧ r.val.Is x ∧ x < 0) := by
  obtain ⟨d, hd⟩ := geom_example
  refine ⟨d, hd, ((C90_geometric_partial hd (Is.fin _) (by norm_num)).2.2.1 2 (by norm_num)).1.congr (by norm_num [geomPMF]), ?_⟩
  rcases C90_geometric_cdf_violated hd (Is.fin _) (by norm_num) (by norm_num) (k := 3000000000) (by norm_num) (by norm_num) .release with h | ⟨r, x, h1, h2, h3, _⟩
  · exact absurd h.2.1 (by simp)
  · exact ⟨r, x, h1, h2, h3⟩
end
end Rstat
