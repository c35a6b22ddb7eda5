import Verif.Lemmas.FloatAcc
import Verif.Props.Dist.Binomial
import Verif.Props.Dist.Geometric
import Verif.Props.Dist.Categorical
import Verif.Props.Dist.Uniform
import Verif.Props.Probability

/-! Properties C249 and C250: masses and discrete distribution functions in rounded arithmetic. -/
set_option linter.unusedSectionVars false
namespace Rstat
open F64 Spec

/-- between two neighbours a binomial mass is at most one half -/
theorem bin_le_half {n k : ℕ} {p : ℝ} (h0 : 0 ≤ p) (h1 : p ≤ 1) (hk : 0 < k) (hkn : k < n) : binPMF n p k ≤ 1 / 2 := by
  obtain ⟨hnn, hs⟩ := bin_pmf h0 h1 n
  have hsum := hs.summable.sum_le_tsum {k - 1, k, k + 1} (fun i _ => hnn i)
  rw [hs.tsum_eq, Finset.sum_insert (by simp; omega), Finset.sum_insert (by simp), Finset.sum_singleton] at hsum
  have hq : 0 ≤ 1 - p := by linarith
  obtain ⟨j, rfl⟩ : ∃ j, k = j + 1 := ⟨k - 1, by omega⟩
  obtain ⟨m, rfl⟩ : ∃ m, n = j + 1 + 1 + m := ⟨n - (j + 2), by omega⟩
  rw [Nat.add_sub_cancel] at hsum
  have a := hnn j
  have b := hnn (j + 1 + 1)
  have hsq : binPMF (j + 1 + 1 + m) p (j + 1) ^ 2 ≤ 4 * (binPMF (j + 1 + 1 + m) p j * binPMF (j + 1 + 1 + m) p (j + 1 + 1)) := by
    have c1 := Nat.choose_succ_right_eq (j + 1 + 1 + m) j
    have c2 := Nat.choose_succ_right_eq (j + 1 + 1 + m) (j + 1)
    have r1 : ((j + 1 + 1 + m).choose (j + 1) : ℝ) * (j + 1) = (j + 1 + 1 + m).choose j * (m + 2) := by
      have : j + 1 + 1 + m - j = m + 2 := by omega
      rw [this] at c1; exact_mod_cast c1
    have r2 : ((j + 1 + 1 + m).choose (j + 1 + 1) : ℝ) * (j + 2) = (j + 1 + 1 + m).choose (j + 1) * (m + 1) := by
      have : j + 1 + 1 + m - (j + 1) = m + 1 := by omega
      rw [this] at c2; exact_mod_cast c2
    unfold binPMF
    have e1 : j + 1 + 1 + m - (j + 1) = m + 1 := by omega
    have e2 : j + 1 + 1 + m - j = m + 2 := by omega
    have e3 : j + 1 + 1 + m - (j + 1 + 1) = m := by omega
    rw [e1, e2, e3]
    have hA : (0:ℝ) ≤ (j + 1 + 1 + m).choose j := Nat.cast_nonneg _
    have hB : (0:ℝ) ≤ (j + 1 + 1 + m).choose (j + 1) := Nat.cast_nonneg _
    have hC : (0:ℝ) ≤ (j + 1 + 1 + m).choose (j + 1 + 1) := Nat.cast_nonneg _
    generalize ((j + 1 + 1 + m).choose j : ℝ) = A at *
    generalize ((j + 1 + 1 + m).choose (j + 1) : ℝ) = B at *
    generalize ((j + 1 + 1 + m).choose (j + 1 + 1) : ℝ) = C at *
    have hj : (0:ℝ) ≤ j := Nat.cast_nonneg j
    have hm : (0:ℝ) ≤ m := Nat.cast_nonneg m
    have key : B ^ 2 ≤ 4 * (A * C) := by
      have t1 : B * (j + 1) ≤ A * (2 * (m + 1)) := by nlinarith
      have t2 : B * (m + 1) ≤ C * (2 * (j + 1)) := by nlinarith
      have t3 : (B * (j + 1)) * (B * (m + 1)) ≤ (A * (2 * (m + 1))) * (C * (2 * (j + 1))) :=
        mul_le_mul t1 t2 (by positivity) (by positivity)
      have hpos : (0:ℝ) < (j + 1) * (m + 1) := by positivity
      have t4 : B ^ 2 * ((j + 1) * (m + 1)) ≤ 4 * (A * C) * ((j + 1) * (m + 1)) := by linarith
      exact le_of_mul_le_mul_right t4 hpos
    have hr : (0:ℝ) ≤ (p ^ (j + 1) * (1 - p) ^ (m + 1)) ^ 2 := by positivity
    calc (B * p ^ (j + 1) * (1 - p) ^ (m + 1)) ^ 2 = B ^ 2 * (p ^ (j + 1) * (1 - p) ^ (m + 1)) ^ 2 := by ring
      _ ≤ 4 * (A * C) * (p ^ (j + 1) * (1 - p) ^ (m + 1)) ^ 2 := mul_le_mul_of_nonneg_right key hr
      _ = _ := by ring
  have := hnn (j + 1)
  nlinarith [sq_nonneg (binPMF (j + 1 + 1 + m) p j - binPMF (j + 1 + 1 + m) p (j + 1 + 1))]

section
variable [FP] [FP.Lawful]

theorem inUnit_sub {a : F64} {p : ℝ} (ha : a.Is p) (h0 : 0 ≤ p) (h1 : p ≤ 1) :
    (1 - a : F64).Is (FP.rnd (1 - p)) ∧ (0 ≤ FP.rnd (1 - p) ∧ FP.rnd (1 - p) ≤ 1) ∧ Near 1 (FP.rnd (1 - p)) (1 - p) := by
  have hq : 0 ≤ 1 - p := by linarith
  refine ⟨sub_is Is.one ha (not_huge_of_le 1 (by norm_num) (by rw [abs_of_nonneg hq]; push_cast; linarith)), ⟨rnd_nn hq, rnd_le_1 (by linarith)⟩, ?_⟩
  have h := rnd_near hq
  have hη : (0:ℝ) < 1 / 2 ^ 1075 := by positivity
  unfold Near
  rw [pow_one, Nat.cast_one, mul_one]
  generalize (1:ℝ) / 2 ^ 1075 = η at *
  exact ⟨h.1.trans (by nlinarith), h.2.trans (by nlinarith)⟩

/-- C249 Bernoulli: both masses are probabilities, for every accepted parameter. -/
theorem C249_bernoulli {a : F64} {d : Bernoulli} (h : Bernoulli.new a = .ok d) (b : Bool) : InUnit (d.pmf b).unwrap := by
  obtain ⟨h0, rfl⟩ := Bernoulli.new_ok.1 h
  obtain ⟨p, hp, p0, p1⟩ := (unit_iff a).1 h0
  cases b
  · obtain ⟨h1, h2, -⟩ := inUnit_sub hp p0 p1
    exact ⟨_, h1, h2.1, h2.2⟩
  · exact ⟨p, hp, p0, p1⟩

/-- C249 categorical: every mass is a probability. -/
theorem C249_categorical {ps : List F64} {d : Categorical} (h : Categorical.new ps = .ok d) {i : ℕ} (hi : i < ps.length) :
    ∃ P, d.pmf i = .ok P ∧ InUnit P.unwrap := by
  obtain ⟨h1, h2⟩ := (C91_categorical_pmf h i).1 ps[i] (by simp [hi])
  exact ⟨_, h1, (C01_is_valid_iff _).1 h2⟩

/-- the geometric mass below 2^31 -/
theorem geom_mass {a : F64} {p : ℝ} {d : Geometric} (h : Geometric.new a = .ok d) (ha : a.Is p) {k : ℕ} (hk : k < 2 ^ 31) :
    (0 ≤ p ∧ p ≤ 1) ∧ ∃ y, (d.pmf k).unwrap.Is y ∧ (0 ≤ y ∧ y ≤ 1) ∧ Near (2 * k + 1) y (geomPMF p k) := by
  obtain ⟨h0, rfl⟩ := Geometric.new_ok.1 h
  have p0 := (Is.zero.le_iff ha).1 h0.1
  have p1 := (ha.le_iff Is.one).1 h0.2
  obtain ⟨q1, q2, q3⟩ := inUnit_sub ha p0 p1
  have hq : 0 ≤ 1 - p ∧ 1 - p ≤ 1 := ⟨by linarith, by linarith⟩
  obtain ⟨Z, z1, z2, z3⟩ := powi_near (i := 1) (n := k) le_rfl (by omega) q1 hq q2 q3
  obtain ⟨w1, w2⟩ := unit_mul_is ha z1 ⟨p0, p1⟩ z2
  refine ⟨⟨p0, p1⟩, _, ?_, w2, ?_⟩
  · unfold Geometric.pmf Probability.newUnchecked Probability.unwrap Probability.powi
    rw [geom_wrap_small hk]; exact w1
  · have := Near.mul (i := 0) (j := k * (1 + 1)) (by rw [Nat.cast_zero, mul_zero, zero_mul]; positivity) ⟨p0, p1⟩ ⟨pow_nonneg hq.1 k, pow_le_one₀ hq.1 hq.2⟩ ⟨p0, p1⟩ z2 Near.refl z3
    have e : 0 + k * (1 + 1) + 1 = 2 * k + 1 := by ring
    rw [e] at this; unfold geomPMF; exact this

/-- C249 geometric: below 2^31 every mass is a probability. Missing: `C249_geometric_violated`. -/
theorem C249_geometric_partial {a : F64} {d : Geometric} (h : Geometric.new a = .ok d) {k : ℕ} (hk : k < 2 ^ 31) : InUnit (d.pmf k).unwrap := by
  obtain ⟨p, hp, -, -⟩ := (unit_iff a).1 (Geometric.new_ok.1 h).1
  obtain ⟨-, y, h1, h2, -⟩ := geom_mass h hp hk
  exact ⟨y, h1, h2.1, h2.2⟩

/-- C250 geometric: the mass of `k < 2^31` failures is right up to a relative error of `(2k + 1) 2^-51` and an absolute one of 2^-1030. -/
theorem C250_geometric_pmf {a : F64} {p : ℝ} {d : Geometric} (h : Geometric.new a = .ok d) (ha : a.Is p) {k : ℕ} (hk : k < 2 ^ 31) :
    ∃ y, (d.pmf k).unwrap.Is y ∧ |y - geomPMF p k| ≤ (2 * k + 1) / 2 ^ 51 * geomPMF p k + 1 / 2 ^ 1030 := by
  obtain ⟨⟨p0, p1⟩, y, h1, h2, h3⟩ := geom_mass h ha hk
  refine ⟨y, h1, ?_⟩
  have := Near.abs (by omega) (geom_nonneg p0 p1 k) h3
  push_cast at this
  exact this

/-- C249, C250 geometric: below 2^31 - 1 the distribution function returns a probability, within `(k + 2) 2^-50` of the right value. -/
theorem C250_geometric_cdf {a : F64} {p : ℝ} {d : Geometric} (h : Geometric.new a = .ok d) (ha : a.Is p) (pr : Profile) {k : ℕ} (hk : k < 2 ^ 31 - 1) :
    ∃ P y, d.cdf pr k = .ok P ∧ P.unwrap.Is y ∧ (0 ≤ y ∧ y ≤ 1) ∧
      |y - ∑ j ∈ Finset.range (k + 1), geomPMF p j| ≤ (k + 2) / 2 ^ 50 := by
  obtain ⟨h0, rfl⟩ := Geometric.new_ok.1 h
  have p0 := (Is.zero.le_iff ha).1 h0.1
  have p1 := (ha.le_iff Is.one).1 h0.2
  obtain ⟨q1, q2, q3⟩ := inUnit_sub ha p0 p1
  have hq : 0 ≤ 1 - p ∧ 1 - p ≤ 1 := ⟨by linarith, by linarith⟩
  obtain ⟨Z, z1, z2, z3⟩ := powi_near (i := 1) (n := k + 1) le_rfl (by omega) q1 hq q2 q3
  obtain ⟨w1, w2, -⟩ := inUnit_sub z1 z2.1 z2.2
  have hc : i32chk pr (i32wrap k + 1) = .ok ((k + 1 : ℕ) : ℤ) := by
    rw [geom_wrap_small (by omega)]; unfold i32chk; rw [if_pos (by omega)]; push_cast; rfl
  refine ⟨⟨1 - F64.powi (1 - a) ((k + 1 : ℕ) : ℤ)⟩, _, ?_, w1, w2, ?_⟩
  · unfold Geometric.cdf; rw [hc]; rfl
  · have hs : ∑ j ∈ Finset.range (k + 1), geomPMF p j = 1 - (1 - p) ^ (k + 1) := by
      unfold geomPMF
      rw [← Finset.mul_sum]
      have := mul_neg_geom_sum (1 - p) (k + 1)
      rw [show 1 - (1 - p) = p by ring] at this
      exact this
    have t0 : 0 ≤ (1 - p) ^ (k + 1) := pow_nonneg hq.1 _
    have t1 : (1 - p) ^ (k + 1) ≤ 1 := pow_le_one₀ hq.1 hq.2
    have e1 := Near.abs (by omega) t0 z3
    have e2 := FP.Lawful.rnd_err (1 - Z)
    rw [abs_of_nonneg (by linarith [z2.2] : 0 ≤ 1 - Z)] at e2
    have s1 : (1:ℝ) / 2 ^ 1075 ≤ 1 / 2 ^ 60 := one_div_le_one_div_of_le (by positivity) (pow_le_pow_right₀ (by norm_num) (by norm_num))
    have s2 : (1:ℝ) / 2 ^ 1030 ≤ 1 / 2 ^ 60 := one_div_le_one_div_of_le (by positivity) (pow_le_pow_right₀ (by norm_num) (by norm_num))
    rw [hs]
    have ek : (((k + 1) * (1 + 1) : ℕ) : ℝ) = 2 * (k + 1) := by push_cast; ring
    rw [ek] at e1
    generalize (1:ℝ) / 2 ^ 1075 = η1 at *
    generalize (1:ℝ) / 2 ^ 1030 = η2 at *
    generalize (1 - p) ^ (k + 1) = t at *
    have hk0 : (0:ℝ) ≤ k := Nat.cast_nonneg k
    have e3 : 2 * ((k:ℝ) + 1) / 2 ^ 51 * t ≤ 2 * ((k:ℝ) + 1) / 2 ^ 51 := mul_le_of_le_one_right (by positivity) t1
    rw [abs_le] at *
    constructor <;> linarith [e1.1, e1.2, e2.1, e2.2, z2.1]

theorem choose_lt_of_fit {n k : ℕ} (hk : k ≤ n) (hfit : ∀ i < min k (n - k), n.choose i * (n - i) < 2 ^ 64) : n.choose k < 2 ^ 64 := by
  have key : ∀ j, j ≤ n → (∀ i < j, n.choose i * (n - i) < 2 ^ 64) → n.choose j < 2 ^ 64 := by
    intro j hj hf
    rcases j with _ | j
    · simp
    · have h1 := hf j (by omega)
      have h2 := Nat.choose_succ_right_eq n j
      nlinarith [Nat.zero_le (n.choose (j + 1) * j)]
  rcases le_total k (n - k) with hle | hle
  · rw [min_eq_left hle] at hfit; exact key k hk hfit
  · rw [min_eq_right hle] at hfit
    rw [← Nat.choose_symm hk]; exact key (n - k) (by omega) hfit

/-- rounding `C · w`, both known up to rounding -/
theorem coef_err {C bc w t y δ ε η : ℝ} (hC : 1 ≤ C) (hw : 0 ≤ w) (ht : 0 ≤ t) (hδ : 0 ≤ δ) (hδ1 : δ ≤ 1 / 2) (_hη : 0 ≤ η) (hη1 : η ≤ 1 / 2 ^ 60) (hε : 0 ≤ ε)
    (hbc : |bc - C| ≤ C / 2 ^ 53 + η) (hwt : |w - t| ≤ δ * t + ε) (hy : |y - bc * w| ≤ bc * w / 2 ^ 53 + η) :
    |y - C * t| ≤ (δ + 1 / 2 ^ 50) * (C * t) + 2 * C * ε + η := by
  rw [abs_le] at hbc hwt hy
  have hη2 : η ≤ C / 2 ^ 60 := hη1.trans (by apply div_le_div_of_nonneg_right hC; norm_num)
  have b1 : bc ≤ C * (1 + 1 / 2 ^ 52) := by linarith [hbc.2]
  have b0 : C * (1 - 1 / 2 ^ 52) ≤ bc := by linarith [hbc.1]
  have bp : 0 ≤ bc := le_trans (by nlinarith) b0
  have w1 : w ≤ (1 + δ) * t + ε := by linarith [hwt.2]
  have w0 : (1 - δ) * t - ε ≤ w := by linarith [hwt.1]
  have hCt : 0 ≤ C * t := by positivity
  have hCe : 0 ≤ C * ε := by positivity
  have hd : δ * (C * t) ≤ 1 / 2 * (C * t) := mul_le_mul_of_nonneg_right hδ1 hCt
  have hd0 : 0 ≤ δ * (C * t) := by positivity
  have u1 : bc * w ≤ C * (1 + 1 / 2 ^ 52) * ((1 + δ) * t + ε) := mul_le_mul b1 w1 hw (by positivity)
  have u0 : C * (1 - 1 / 2 ^ 52) * ((1 - δ) * t - ε) ≤ bc * w := by
    calc C * (1 - 1 / 2 ^ 52) * ((1 - δ) * t - ε) ≤ C * (1 - 1 / 2 ^ 52) * w := mul_le_mul_of_nonneg_left w0 (by nlinarith)
      _ ≤ bc * w := mul_le_mul_of_nonneg_right b0 hw
  have e1 : C * (1 + 1 / 2 ^ 52) * ((1 + δ) * t + ε) = (1 + 1 / 2 ^ 52) * (C * t + δ * (C * t) + C * ε) := by ring
  have e0 : C * (1 - 1 / 2 ^ 52) * ((1 - δ) * t - ε) = (1 - 1 / 2 ^ 52) * (C * t - δ * (C * t) - C * ε) := by ring
  rw [e1] at u1
  rw [e0] at u0
  have e3 : (δ + 1 / 2 ^ 50) * (C * t) = δ * (C * t) + 1 / 2 ^ 50 * (C * t) := by ring
  rw [e3, mul_assoc 2 C ε]
  generalize bc * w = m at *
  generalize δ * (C * t) = D at *
  generalize C * t = T at *
  generalize C * ε = E at *
  rw [abs_le]
  constructor
  · linarith [hy.1]
  · linarith [hy.2]

/-- the binomial mass -/
theorem bin_mass {n : ℕ} {P : Probability} {p : ℝ} {d : Binomial} (h : Binomial.new n P = .ok d) (hp : P.val.Is p) (pr : Profile) {k : ℕ}
    (hk : k ≤ n) (hk1 : k < 2 ^ 31) (hk2 : n - k < 2 ^ 31) (hfit : ∀ i < min k (n - k), n.choose i * (n - i) < 2 ^ 64) :
    ∃ R y, d.pmf pr k = .ok R ∧ R.unwrap.Is y ∧ (0 ≤ y ∧ y ≤ 1) ∧
      |y - binPMF n p k| ≤ (2 * n + 3) / 2 ^ 51 * binPMF n p k + 1 / 2 ^ 960 := by
  obtain ⟨h0, rfl⟩ := Binomial.new_ok.1 h
  have p0 := (Is.zero.le_iff hp).1 h0.1
  have p1 := (hp.le_iff Is.one).1 h0.2
  obtain ⟨q1, q2, q3⟩ := inUnit_sub hp p0 p1
  have hq : 0 ≤ 1 - p ∧ 1 - p ≤ 1 := ⟨by linarith, by linarith⟩
  obtain ⟨A, a1, a2, a3⟩ := powi_near (i := 0) (n := k) (by norm_num) (by omega) hp ⟨p0, p1⟩ ⟨p0, p1⟩ Near.refl
  obtain ⟨B, b1, b2, b3⟩ := powi_near (i := 1) (n := n - k) le_rfl (by omega) q1 hq q2 q3
  obtain ⟨w1, w2⟩ := unit_mul_is a1 b1 a2 b2
  have hn : n < 2 ^ 32 := by omega
  have tp : 0 ≤ p ^ k ∧ p ^ k ≤ 1 := ⟨pow_nonneg p0 _, pow_le_one₀ p0 p1⟩
  have tq : 0 ≤ (1 - p) ^ (n - k) ∧ (1 - p) ^ (n - k) ≤ 1 := ⟨pow_nonneg hq.1 _, pow_le_one₀ hq.1 hq.2⟩
  have hw := Near.mul (i := k * (0 + 1)) (j := (n - k) * (1 + 1)) (by
    have h1 : ((k * (0 + 1) : ℕ) : ℝ) ≤ 2 ^ 34 := by exact_mod_cast (by omega : k * (0 + 1) ≤ 2 ^ 34)
    have h2 : (((n - k) * (1 + 1) : ℕ) : ℝ) ≤ 2 ^ 34 := by exact_mod_cast (by omega : (n - k) * (1 + 1) ≤ 2 ^ 34)
    calc (3 * ((k * (0 + 1) : ℕ) : ℝ)) * (3 * (((n - k) * (1 + 1) : ℕ) : ℝ)) ≤ (3 * 2 ^ 34) * (3 * 2 ^ 34) :=
          mul_le_mul (by linarith) (by linarith) (by positivity) (by norm_num)
      _ ≤ 2 ^ 80 := by norm_num
      _ ≤ 2 ^ 1075 := pow_le_pow_right₀ (by norm_num) (by norm_num)) tp tq a2 b2 a3 b3
  have tpq := mul_nonneg tp.1 tq.1
  have ew := Near.abs (by omega) tpq hw
  have hC := choose_lt_of_fit hk hfit
  have hC1 : 1 ≤ n.choose k := Nat.choose_pos hk
  have hC1' : (1:ℝ) ≤ n.choose k := by exact_mod_cast hC1
  have hC2' : (n.choose k : ℝ) ≤ 2 ^ 64 := by exact_mod_cast hC.le
  obtain ⟨bc, c1, c0, -⟩ := ofNat_fin hC
  have c2 : bc = FP.rnd (n.choose k : ℝ) := by
    have : (F64.ofNat (n.choose k)).Is (FP.rnd (n.choose k : ℝ)) := by
      unfold F64.ofNat
      exact round_is (FP.Lawful.not_huge _ (by
        have e := FP.Lawful.rnd_err (n.choose k : ℝ)
        rw [abs_of_nonneg (a := (n.choose k : ℝ)) (by linarith)] at e
        have s1 : (1:ℝ) / 2 ^ 1075 ≤ 1 := by rw [div_le_one (by positivity)]; exact one_le_pow₀ (by norm_num)
        have s2 : (2:ℝ) ^ 66 ≤ 2 ^ 1023 := pow_le_pow_right₀ (by norm_num) (by norm_num)
        generalize (1:ℝ) / 2 ^ 1075 = η at *
        generalize (2:ℝ) ^ 1023 = H at *
        rw [abs_le] at e ⊢
        constructor <;> linarith [e.1, e.2]))
    exact c1.eq this
  have ebc := FP.Lawful.rnd_err (n.choose k : ℝ)
  rw [← c2, abs_of_nonneg (a := (n.choose k : ℝ)) (by linarith)] at ebc
  have hs1 : (1:ℝ) / 2 ^ 1075 ≤ 1 / 2 ^ 60 := one_div_le_one_div_of_le (by positivity) (pow_le_pow_right₀ (by norm_num) (by norm_num))
  have hη0 : (0:ℝ) ≤ 1 / 2 ^ 1075 := by positivity
  have bcw0 : 0 ≤ bc * FP.rnd (A * B) := mul_nonneg c0 w2.1
  have ey := FP.Lawful.rnd_err (bc * FP.rnd (A * B))
  rw [abs_of_nonneg bcw0] at ey
  have hbc2 : bc ≤ 2 ^ 65 := by
    rw [abs_le] at ebc
    generalize (1:ℝ) / 2 ^ 1075 = η at *
    linarith [ebc.2]
  have hnh : ¬ FP.huge (FP.rnd (bc * FP.rnd (A * B))) := FP.Lawful.not_huge _ (by
    have hb : bc * FP.rnd (A * B) ≤ 2 ^ 65 := by nlinarith [w2.1, w2.2]
    have s2 : (2:ℝ) ^ 67 ≤ 2 ^ 1023 := pow_le_pow_right₀ (by norm_num) (by norm_num)
    generalize (1:ℝ) / 2 ^ 1075 = η at *
    generalize (2:ℝ) ^ 1023 = H at *
    rw [abs_of_nonneg (rnd_nn bcw0)]
    rw [abs_le] at ey
    linarith [ey.2])
  have y1 := mul_is c1 w1 hnh
  have y0 := rnd_nn bcw0
  have hN : k * (0 + 1) + (n - k) * (1 + 1) + 1 ≤ 2 * n + 1 := by omega
  have hN' : ((k * (0 + 1) + (n - k) * (1 + 1) + 1 : ℕ) : ℝ) ≤ 2 * n + 1 := by exact_mod_cast hN
  have hn' : (n:ℝ) ≤ 2 ^ 32 := by exact_mod_cast hn.le
  have hn0 : (0:ℝ) ≤ n := Nat.cast_nonneg n
  have ew' : |FP.rnd (A * B) - p ^ k * (1 - p) ^ (n - k)| ≤ (2 * n + 1) / 2 ^ 51 * (p ^ k * (1 - p) ^ (n - k)) + 1 / 2 ^ 1030 :=
    ew.trans (by
      apply add_le_add_left
      exact mul_le_mul_of_nonneg_right (div_le_div_of_nonneg_right hN' (by norm_num)) tpq)
  have hbin : (n.choose k : ℝ) * (p ^ k * (1 - p) ^ (n - k)) = binPMF n p k := by unfold binPMF; ring
  have err := coef_err hC1' w2.1 tpq (by positivity : (0:ℝ) ≤ (2 * n + 1) / 2 ^ 51) (by rw [div_le_iff₀ (by norm_num)]; linarith) hη0 hs1
    (by positivity : (0:ℝ) ≤ 1 / 2 ^ 1030) ebc ew' ey
  rw [hbin] at err
  have htiny : 2 * (n.choose k : ℝ) * (1 / 2 ^ 1030) + 1 / 2 ^ 1075 ≤ 1 / 2 ^ 960 := by
    have t1 : 2 * (n.choose k : ℝ) * (1 / 2 ^ 1030) ≤ 2 ^ 65 * (1 / 2 ^ 1030) := by
      apply mul_le_mul_of_nonneg_right _ (by positivity); linarith
    have t2 : (2:ℝ) ^ 65 * (1 / 2 ^ 1030) = 1 / 2 ^ 965 := by rw [show (1030:ℕ) = 65 + 965 by norm_num, pow_add]; field_simp
    have t3 : (1:ℝ) / 2 ^ 1075 ≤ 1 / 2 ^ 965 := one_div_le_one_div_of_le (by positivity) (pow_le_pow_right₀ (by norm_num) (by norm_num))
    have t4 : (1:ℝ) / 2 ^ 965 * 32 = 1 / 2 ^ 960 := by rw [show (965:ℕ) = 960 + 5 by norm_num, pow_add]; field_simp; norm_num
    have t5 : (0:ℝ) ≤ 1 / 2 ^ 965 := by positivity
    rw [← t4]
    rw [t2] at t1
    linarith
  have err' : |FP.rnd (bc * FP.rnd (A * B)) - binPMF n p k| ≤ (2 * n + 3) / 2 ^ 51 * binPMF n p k + 1 / 2 ^ 960 := by
    refine err.trans ?_
    have e : (2 * (n:ℝ) + 1) / 2 ^ 51 + 1 / 2 ^ 50 = (2 * n + 3) / 2 ^ 51 := by ring
    rw [e, add_assoc]
    exact add_le_add le_rfl htiny
  refine ⟨⟨F64.ofNat (n.choose k) * (F64.powi P.val k * F64.powi (1 - P.val) ((n - k : ℕ) : ℤ))⟩, _, ?_, y1, ⟨y0, ?_⟩, err'⟩
  · unfold Binomial.pmf
    rw [choose_eq_core pr n k (by unfold U64; omega) hk hfit, usub_ok hk]
    unfold Probability.newUnchecked Probability.powi Probability.not
    rw [i32wrap_small (by omega) (by omega)]
    simp only [exc_ok_bind]
    rw [i32wrap_small (by omega) (by omega)]
    rfl
  · rcases Nat.eq_zero_or_pos k with hk0 | hkp
    · subst hk0
      rw [Nat.choose_zero_right, Nat.cast_one, F64.rnd_one] at c2
      rw [c2, one_mul]; exact rnd_le_1 w2.2
    · rcases Nat.lt_or_ge k n with hlt | hge
      · have hb := bin_le_half p0 p1 hkp hlt
        have hb0 := bin_nonneg p0 p1 n k
        have s : (1:ℝ) / 2 ^ 960 ≤ 1 / 2 ^ 60 := one_div_le_one_div_of_le (by positivity) (pow_le_pow_right₀ (by norm_num) (by norm_num))
        have hm : (2 * (n:ℝ) + 3) / 2 ^ 51 * binPMF n p k ≤ 1 / 2 ^ 17 * binPMF n p k := by
          apply mul_le_mul_of_nonneg_right _ hb0
          rw [div_le_iff₀ (by norm_num)]; norm_num; linarith
        rw [abs_le] at err'
        generalize (1:ℝ) / 2 ^ 960 = η at *
        linarith [err'.2]
      · have : k = n := by omega
        subst this
        rw [Nat.choose_self, Nat.cast_one, F64.rnd_one] at c2
        rw [c2, one_mul]; exact rnd_le_1 w2.2

/-- C249 binomial: whenever the intermediate products of `choose` fit in u64 and the exponents in i32, the mass of every `k ≤ n` is a
probability. Missing: the other cases (`C249_binomial_violated`). -/
theorem C249_binomial_partial {n : ℕ} {P : Probability} {d : Binomial} (h : Binomial.new n P = .ok d) (pr : Profile) {k : ℕ}
    (hk : k ≤ n) (hk1 : k < 2 ^ 31) (hk2 : n - k < 2 ^ 31) (hfit : ∀ i < min k (n - k), n.choose i * (n - i) < 2 ^ 64) :
    ∃ R, d.pmf pr k = .ok R ∧ InUnit R.unwrap := by
  obtain ⟨p, hp, -, -⟩ := (unit_iff P.val).1 (Binomial.new_ok.1 h).1
  obtain ⟨R, y, h1, h2, h3, -⟩ := bin_mass h hp pr hk hk1 hk2 hfit
  exact ⟨R, h1, y, h2, h3.1, h3.2⟩

/-- C250 binomial: in those cases the mass is right up to a relative error of `(2n + 3) 2^-51` and an absolute one of 2^-960. -/
theorem C250_binomial_pmf {n : ℕ} {P : Probability} {p : ℝ} {d : Binomial} (h : Binomial.new n P = .ok d) (hp : P.val.Is p) (pr : Profile) {k : ℕ}
    (hk : k ≤ n) (hk1 : k < 2 ^ 31) (hk2 : n - k < 2 ^ 31) (hfit : ∀ i < min k (n - k), n.choose i * (n - i) < 2 ^ 64) :
    ∃ R y, d.pmf pr k = .ok R ∧ R.unwrap.Is y ∧ |y - binPMF n p k| ≤ (2 * n + 3) / 2 ^ 51 * binPMF n p k + 1 / 2 ^ 960 := by
  obtain ⟨R, y, h1, h2, -, h3⟩ := bin_mass h hp pr hk hk1 hk2 hfit
  exact ⟨R, y, h1, h2, h3⟩

/-- C250 binomial, up to 62 trials: no side condition; every mass has a relative error below 2^-44. -/
theorem C250_binomial_62 {n : ℕ} {P : Probability} {p : ℝ} {d : Binomial} (h : Binomial.new n P = .ok d) (hp : P.val.Is p) (hn : n ≤ 62) (pr : Profile) {k : ℕ}
    (hk : k ≤ n) :
    ∃ R y, d.pmf pr k = .ok R ∧ R.unwrap.Is y ∧ |y - binPMF n p k| ≤ 1 / 2 ^ 44 * binPMF n p k + 1 / 2 ^ 960 := by
  obtain ⟨R, y, h1, h2, h3⟩ := C250_binomial_pmf h hp pr hk (by omega) (by omega) (fun i _ => choose_fit_62 n hn i)
  have p0 := (Is.zero.le_iff hp).1 (Binomial.new_ok.1 h).1.1
  have p1 := (hp.le_iff Is.one).1 (Binomial.new_ok.1 h).1.2
  refine ⟨R, y, h1, h2, h3.trans (add_le_add (mul_le_mul_of_nonneg_right ?_ (bin_nonneg p0 p1 n k)) le_rfl)⟩
  have hn' : (n:ℝ) ≤ 62 := by exact_mod_cast hn
  rw [div_le_iff₀ (by norm_num)]; norm_num; linarith
end
end Rstat
