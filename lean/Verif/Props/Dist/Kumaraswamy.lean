import Verif.Model.Dist.Kumaraswamy
import Verif.Lemmas.Dist.Kumaraswamy
import Verif.Lemmas.DistBase
import Verif.Props.Dist.Weibull

/-! Properties C72, C113, C114: the Kumaraswamy law. -/
set_option linter.unusedSectionVars false
namespace Rstat
open F64 Consts Spec MeasureTheory Set

theorem Kumaraswamy.new_ok [FP] {a b : F64} {d : Kumaraswamy} :
    Kumaraswamy.new a b = .ok d ↔ 0 < a ∧ 0 < b ∧ d = ⟨a, b⟩ := by
  simp only [Kumaraswamy.new, exc_bind_ok, Shape.new_ok]
  constructor
  · rintro ⟨_, ⟨h0, rfl⟩, _, ⟨h1, rfl⟩, h⟩; exact ⟨h0, h1, by cases h; rfl⟩
  · rintro ⟨h0, h1, rfl⟩; exact ⟨_, ⟨h0, rfl⟩, _, ⟨h1, rfl⟩, rfl⟩

section
variable [FP] [FP.Exact] {a b : F64} {p q : ℝ} {d : Kumaraswamy}

theorem kuma_moment_is (hp : 0 < p) (hq : 0 < q) (ha : a.Is p) (hb : b.Is q) (n : ℕ) :
    (Kumaraswamy.momentN ⟨a, b⟩ n).Is (q * Beta (1 + n / p) q) := by
  unfold Kumaraswamy.momentN
  exact hb.mul (Is.beta (by fev) hb (by positivity) hq)

theorem kuma_cdf_is (hp : 0 < p) (hq : 0 < q) (ha : a.Is p) (hb : b.Is q) {x : F64} {t : ℝ} (hx : x.Is t) (h0 : 0 ≤ t)
    (h1 : t ≤ 1) : (Kumaraswamy.cdf ⟨a, b⟩ x).val.Is (1 - (1 - t ^ p) ^ q) := by
  unfold Kumaraswamy.cdf Probability.newUnchecked
  exact Is.one.sub (Is.powf_nonneg (Is.one.sub (Is.powf_nonneg hx ha h0 hp)) hb (sub_nonneg.2 (Real.rpow_le_one h0 h1 hp.le)) hq)

theorem kuma_modes_iff (ha : a.Is p) (hb : b.Is q) :
    ((1 < a ∧ 1 ≤ b) ∨ (1 ≤ a ∧ 1 < b)) ↔ ((1 < p ∧ 1 ≤ q) ∨ (1 ≤ p ∧ 1 < q)) := by
  rw [Is.one.lt_iff ha, Is.one.le_iff ha, Is.one.lt_iff hb, Is.one.le_iff hb]

/-- C72: `cdf` on `[0,1]` and `pdf` on `(0,1)` are the distribution function and density of the Kumaraswamy law; mean,
variance, skewness are its moments; `cdf(median) = 1/2`; a value sampled from the draw `u` has `cdf = u`, so lies at the
`u`-quantile; the reported mode maximises the density for `a, b > 1`, is the end of the interval towards which the density
increases when one of them is 1, and none is reported where the density is unbounded (hence has no maximiser) or
constant. -/
theorem C72_kumaraswamy (h : Kumaraswamy.new a b = .ok d) (ha : a.Is p) (hb : b.Is q) :
    0 < p ∧ 0 < q ∧
    Computes (fun x => (d.cdf x).val) (kumaraswamyCDF p q) (Icc 0 1) ∧
    Computes d.pdf (kumaraswamyPDF p q) (Ioo 0 1) ∧
    IsCDF (kumaraswamyCDF p q) ∧ IsDensityOf (kumaraswamyPDF p q) (kumaraswamyCDF p q) ∧
    (∃ m v, d.mean.Is m ∧ d.variance.Is v ∧ HasMeanVar (kumaraswamyPDF p q) m v) ∧
    (∃ s, d.skewness.Is s ∧ HasSkew (kumaraswamyPDF p q) s) ∧
    (∃ x, d.median.Is x ∧ kumaraswamyCDF p q x = 1 / 2) ∧
    (∀ (u : F64) (r : ℝ), u.Is r → 0 < r → r < 1 → ∃ x, (d.sampleFrom u).Is x ∧ 0 < x ∧ x < 1 ∧
      kumaraswamyCDF p q x = r ∧ (d.cdf (d.sampleFrom u)).val.Is r) ∧
    (1 < p → 1 < q → ∃ y x, d.modes = [y] ∧ y.Is x ∧ IsMode (kumaraswamyPDF p q) x) ∧
    (p = 1 → 1 < q → ∃ y, d.modes = [y] ∧ y.Is 0 ∧ AntitoneOn (kumaraswamyPDF p q) (Ioo 0 1)) ∧
    (1 < p → q = 1 → ∃ y, d.modes = [y] ∧ y.Is 1 ∧ MonotoneOn (kumaraswamyPDF p q) (Ioo 0 1)) ∧
    (p < 1 ∨ q < 1 → d.modes = [] ∧ ∀ x, ¬ IsMode (kumaraswamyPDF p q) x) ∧
    (p = 1 → q = 1 → d.modes = [] ∧ ∀ x ∈ Ioo (0:ℝ) 1, kumaraswamyPDF p q x = 1) := by
  obtain ⟨h0, h1, rfl⟩ := Kumaraswamy.new_ok.1 h
  have hp : 0 < p := pos_of_lt h0 ha
  have hq : 0 < q := pos_of_lt h1 hb
  obtain ⟨hF, hD⟩ := kuma_density hp hq
  have r1 : HasMean (kumaraswamyPDF p q) (q * Beta (1 + 1 / p) q) :=
    hasMean_iff_raw.2 ((kuma_raw hp hq 1).congr_val (by rw [Nat.cast_one]))
  have r2 := kuma_raw hp hq 2
  have r3 := kuma_raw hp hq 3
  rw [Nat.cast_ofNat] at r2 r3
  have m1 := kuma_moment_is hp hq ha hb 1
  have m2 := kuma_moment_is hp hq ha hb 2
  have m3 := kuma_moment_is hp hq ha hb 3
  rw [Nat.cast_one] at m1
  rw [Nat.cast_ofNat] at m2 m3
  obtain ⟨hv, mv, sk⟩ := skew_of_raw hD r1 r2 r3
  have hvar : (Kumaraswamy.variance ⟨a, b⟩).Is (q * Beta (1 + 2 / p) q - (q * Beta (1 + 1 / p) q) ^ 2) := by
    unfold Kumaraswamy.variance
    exact (m2.sub (m1.mul m1)).congr (by ring)
  have samp : ∀ (u : F64) (r : ℝ), u.Is r → 0 < r → r < 1 → (Kumaraswamy.sampleFrom ⟨a, b⟩ u).Is ((1 - (1 - r) ^ (1 / q)) ^ (1 / p)) ∧
      0 < 1 - (1 - r) ^ (1 / q) ∧ 1 - (1 - r) ^ (1 / q) < 1 := fun u r hu hr hr1 => by
    have h1r : 0 < 1 - r := by linarith
    have h2 : 0 < 1 - (1 - r) ^ (1 / q) := sub_pos.2 (Real.rpow_lt_one h1r.le (by linarith) (by positivity))
    have h3 : 0 < (1 - r) ^ (1 / q) := by positivity
    refine ⟨?_, h2, by linarith⟩
    unfold Kumaraswamy.sampleFrom
    fev
  have inv : ∀ r, 0 < r → r < 1 → 0 < 1 - (1 - r) ^ (1 / q) → 1 - (1 - r) ^ (1 / q) < 1 →
      let x := (1 - (1 - r) ^ (1 / q)) ^ (1 / p)
      0 < x ∧ x < 1 ∧ 1 - (1 - x ^ p) ^ q = r ∧ kumaraswamyCDF p q x = r := fun r hr hr1 h2 h3 => by
    intro x
    have hx0 : 0 < x := Real.rpow_pos_of_pos h2 _
    have hx1 : x < 1 := Real.rpow_lt_one h2.le h3 (by positivity)
    have h1r : 0 < 1 - r := by linarith
    have e : 1 - (1 - x ^ p) ^ q = r := by
      rw [← Real.rpow_mul h2.le, one_div_mul_cancel hp.ne', Real.rpow_one, sub_sub_cancel, ← Real.rpow_mul h1r.le,
        one_div_mul_cancel hq.ne', Real.rpow_one, sub_sub_cancel]
    refine ⟨hx0, hx1, e, ?_⟩
    rw [kumaraswamyCDF, if_neg (not_lt.2 hx0.le), if_neg (not_le.2 hx1), e]
  have modeval : (1 < p ∧ 1 ≤ q) ∨ (1 ≤ p ∧ 1 < q) →
      Kumaraswamy.modes ⟨a, b⟩ = [((a - 1) / (a * b - 1)).powf (1 / a)] := fun hc => by
    have c := (kuma_modes_iff ha hb).2 hc
    unfold Kumaraswamy.modes; simp only [c, if_true]
  have modenil : ¬ ((1 < p ∧ 1 ≤ q) ∨ (1 ≤ p ∧ 1 < q)) → Kumaraswamy.modes ⟨a, b⟩ = [] := fun hc => by
    have c : ¬ ((1 < a ∧ 1 ≤ b) ∨ (1 ≤ a ∧ 1 < b)) := fun h => hc ((kuma_modes_iff ha hb).1 h)
    unfold Kumaraswamy.modes; simp only [c, if_false]
  refine ⟨hp, hq, fun x t ht hx => ?_, fun x t ht hx => ?_, hF, hD, ⟨_, _, m1, hvar, mv⟩, ⟨_, ?_, sk⟩, ?_,
    fun u r hu hr hr1 => ?_, fun h1 h2 => ⟨_, _, modeval (Or.inl ⟨h1, h2.le⟩), ?_, kuma_mode h1 h2⟩,
    fun h1 h2 => ⟨_, modeval (Or.inr ⟨h1.ge, h2⟩), ?_, ?_⟩, fun h1 h2 => ⟨_, modeval (Or.inl ⟨h1, h2.ge⟩), ?_, ?_⟩,
    fun hlt => ⟨modenil ?_, kuma_no_mode hp hq hlt⟩, fun h1 h2 => ⟨modenil ?_, fun x hx => ?_⟩⟩
  · refine (kuma_cdf_is hp hq ha hb hx ht.1 ht.2).congr ?_
    rw [kumaraswamyCDF, if_neg (not_lt.2 ht.1)]
    split_ifs with h
    · have e : t = 1 := le_antisymm ht.2 h
      rw [e, Real.one_rpow, sub_self, Real.zero_rpow hq.ne', sub_zero]
    · rfl
  · have h3 : 0 < 1 - t ^ p := sub_pos.2 (Real.rpow_lt_one ht.1.le ht.2 hp)
    have := ht.1
    rw [kuma_inside ht.1 ht.2]
    unfold Kumaraswamy.pdf
    fev
  · unfold Kumaraswamy.skewness Kumaraswamy.mean; dsimp only
    have hpw := Is.powf hvar ((Is.num 3).div (Is.num 2) (by norm_num)) hv
    rw [rpow_three_halves hv] at hpw
    have hne := pow_ne_zero 3 (Real.sqrt_pos.2 hv).ne'
    refine Is.congr (Is.div (((m3.sub (((Is.num 3).mul m1).mul hvar))).sub (m1.powi 3)) hpw hne) ?_
    congr 1
    ring
  · obtain ⟨-, h2, h3⟩ := samp (fin (1/2)) (1/2) (Is.fin _) (by norm_num) (by norm_num)
    obtain ⟨i0, i1, i2, i3⟩ := inv (1/2) (by norm_num) (by norm_num) h2 h3
    refine ⟨_, ?_, i3⟩
    unfold Kumaraswamy.median
    have e : (1 - 1 / 2 : ℝ) ^ (1 / q) = 2 ^ (-1 / q) := by
      rw [show (1 - 1 / 2 : ℝ) = 2⁻¹ by norm_num, Real.inv_rpow zero_le_two, ← Real.rpow_neg zero_le_two, neg_div]
    rw [e] at h2 h3 ⊢
    fev
  · obtain ⟨i, h2, h3⟩ := samp u r hu hr hr1
    obtain ⟨i0, i1, i2, i3⟩ := inv r hr hr1 h2 h3
    exact ⟨_, i, i0, i1, i3, (kuma_cdf_is hp hq ha hb i i0.le i1.le).congr i2⟩
  · have hab : 0 < p * q - 1 := by nlinarith
    have hab' : p * q - 1 ≠ 0 := hab.ne'
    have : 0 < (p - 1) / (p * q - 1) := div_pos (by linarith) hab
    fev
  · subst h1
    have hab' : 1 * q - 1 ≠ 0 := by linarith
    have h0' : ((a - 1) / (a * b - 1)).Is 0 := Is.congr (r := (1 - 1) / (1 * q - 1)) (by fev) (by simp)
    exact Is.powf_zero h0' (Is.div Is.one ha one_ne_zero) (by norm_num)
  · subst h1; exact kuma_antitone h2.le
  · subst h2
    have hab' : p * 1 - 1 ≠ 0 := by linarith
    have h0' : ((a - 1) / (a * b - 1)).Is 1 := Is.congr (r := (p - 1) / (p * 1 - 1)) (by fev) (by rw [mul_one] at *; field_simp)
    exact (Is.powf h0' (Is.div Is.one ha hp.ne') one_pos).congr (Real.one_rpow _)
  · subst h2; exact kuma_monotone h1.le
  · rintro (h | h) <;> rcases hlt with h' | h' <;> linarith [h.1, h.2]
  · rintro (h | h) <;> linarith [h.1, h.2]
  · subst h1 h2
    rw [kuma_inside hx.1 hx.2]; simp

/-- the harmonic number computed by the code -/
theorem harmonicN_is (n : ℕ) : (Kumaraswamy.harmonicN n).Is (∑ i ∈ Finset.range n, 1 / ((i : ℝ) + 1)) := by
  unfold Kumaraswamy.harmonicN
  refine (Is.sum_map (List.range n) _ (fun i => 1 / ((i : ℝ) + 1)) fun i _ => ?_).congr ?_
  · refine Is.div Is.one ((Is.ofNat _).congr (by push_cast; rfl)) (by positivity)
  · rw [← List.sum_toFinset _ List.nodup_range]
    congr 1
    ext; simp

/-- the value returned by `shannon_entropy` -/
theorem kuma_entropy_is (hp : 0 < p) (hq : 0 < q) (ha : a.Is p) (hb : b.Is q) :
    (Kumaraswamy.shannonEntropy ⟨a, b⟩).Is
      ((1 - 1 / q) + (1 - 1 / p) * (Spec.digamma ((Min.min ⌊q⌋₊ (2 ^ 64 - 1) : ℕ) + 1) - Spec.digamma 1) - Real.log (p * q)) := by
  unfold Kumaraswamy.shannonEntropy; dsimp only
  have hf : b.floor.toU64 = Min.min ⌊q⌋₊ (2 ^ 64 - 1) := by
    have h0 : (0 : ℤ) ≤ ⌊q⌋ := Int.floor_nonneg.2 hq.le
    rcases hb.floor with h | ⟨h, h'⟩
    · rw [h]
      unfold F64.toU64; dsimp only
      rw [if_neg (not_lt.2 (by exact_mod_cast h0)), ← Int.floor_toNat, Int.floor_intCast, Int.floor_toNat]; rfl
    · rw [h]
      have : ⌊q⌋₊ = 0 := by rw [← Int.floor_toNat]; have : ⌊q⌋ = 0 := by exact_mod_cast h'
                            rw [this]; rfl
      rw [this]; rfl
  rw [hf, digamma_nat]
  have := harmonicN_is (Min.min ⌊q⌋₊ (2 ^ 64 - 1))
  fev

/-- C113 (violated): the differential entropy of the Kumaraswamy law is `(1 - 1/b) + (1 - 1/a) H_b - ln(ab)` with the
generalised harmonic number `H_b = ψ(b+1) - ψ(1)`; the code uses `H_⌊b⌋`, with `⌊b⌋` cut off at 2^64 - 1, so the
returned value differs from the entropy for every `a ≠ 1` and every `b` that is not an integer below 2^64. -/
theorem C113_kumaraswamy_entropy_violated (h : Kumaraswamy.new a b = .ok d) (ha : a.Is p) (hb : b.Is q)
    (hp1 : p ≠ 1) (hq1 : ∀ n : ℕ, n < 2 ^ 64 → q ≠ n) :
    ∃ r e, d.shannonEntropy.Is r ∧ HasEntropy (kumaraswamyPDF p q) e ∧ r ≠ e := by
  obtain ⟨h0, h1, rfl⟩ := Kumaraswamy.new_ok.1 h
  have hp : 0 < p := pos_of_lt h0 ha
  have hq : 0 < q := pos_of_lt h1 hb
  refine ⟨_, _, kuma_entropy_is hp hq ha hb, kuma_entropy hp hq, fun e => ?_⟩
  generalize hm : Min.min ⌊q⌋₊ (2 ^ 64 - 1) = m at e
  have h1 : (1 - 1 / p) * (Spec.digamma ((m : ℝ) + 1) - Spec.digamma 1) = (1 - 1 / p) * (Spec.digamma (q + 1) - Spec.digamma 1) := by linarith
  have h2 : 1 - 1 / p ≠ 0 := fun h => hp1 (by field_simp at h; linarith)
  have h3 := mul_left_cancel₀ h2 h1
  have h4 := (digamma_inj (a := (m : ℝ) + 1) (b := q + 1) (by positivity) (by positivity)).1 (by linarith)
  exact hq1 m (by omega) (by linarith)

/-- C113 (what holds): for integer `b` below 2^64, or `a = 1`, `shannon_entropy` is the differential entropy. -/
theorem C113_kumaraswamy_entropy_partial (h : Kumaraswamy.new a b = .ok d) (ha : a.Is p) (hb : b.Is q)
    (hpq : p = 1 ∨ ∃ n : ℕ, n < 2 ^ 64 ∧ q = n) : ∃ e, d.shannonEntropy.Is e ∧ HasEntropy (kumaraswamyPDF p q) e := by
  obtain ⟨h0, h1, rfl⟩ := Kumaraswamy.new_ok.1 h
  have hp : 0 < p := pos_of_lt h0 ha
  have hq : 0 < q := pos_of_lt h1 hb
  refine ⟨_, (kuma_entropy_is hp hq ha hb).congr ?_, kuma_entropy hp hq⟩
  rcases hpq with rfl | ⟨n, hn, rfl⟩
  · simp
  · rw [Nat.floor_natCast, min_eq_left (by omega)]

/-- C114 (violated): at every point above the support, where the distribution function is 1, `cdf` returns something else
(NaN for non-integer `b`); at every point of `(-1, 0)`, where it is 0, `cdf` returns something else as well. -/
theorem C114_kumaraswamy_off_support_violated (h : Kumaraswamy.new a b = .ok d) (ha : a.Is p) (hb : b.Is q) :
    (∀ (x : F64) (t : ℝ), x.Is t → 1 < t → kumaraswamyCDF p q t = 1 ∧ ¬ (d.cdf x).val.Is 1) ∧
    (∀ (x : F64) (t : ℝ), x.Is t → -1 < t → t < 0 → kumaraswamyCDF p q t = 0 ∧ ¬ (d.cdf x).val.Is 0) ∧
    ((∀ n : ℤ, q ≠ n) → ∀ (x : F64) (t : ℝ), x.Is t → 1 < t → (d.cdf x).val = nan ∧ ¬ (d.cdf x).isValid) := by
  obtain ⟨h0, h1, rfl⟩ := Kumaraswamy.new_ok.1 h
  have hp : 0 < p := pos_of_lt h0 ha
  have hq : 0 < q := pos_of_lt h1 hb
  have nanp : (nan : F64).powf b = nan := by
    rw [hb.eq_fin hq.ne']; unfold F64.powf
    rw [if_neg (fun h => hq.ne' h.2), if_neg (fun h => h.1)]
  have above : ∀ (x : F64) (t : ℝ), x.Is t → 1 < t → ∃ y : F64, y.Is (1 - t ^ p) ∧ 1 - t ^ p < 0 ∧ (Kumaraswamy.cdf ⟨a, b⟩ x).val = 1 - y.powf b :=
    fun x t hx ht => ⟨1 - x.powf a, Is.one.sub (Is.powf hx ha (by linarith)), sub_neg.2 (Real.one_lt_rpow ht hp), rfl⟩
  refine ⟨fun x t hx ht => ⟨by rw [kumaraswamyCDF, if_neg (by linarith), if_pos ht.le], fun hc => ?_⟩,
    fun x t hx ht ht0 => ⟨by rw [kumaraswamyCDF, if_pos ht0], fun hc => ?_⟩, fun hn x t hx ht => ?_⟩
  · obtain ⟨y, hy, hneg, e⟩ := above x t hx ht
    rw [e] at hc
    have hpos : 0 < (-(1 - t ^ p)) ^ q := Real.rpow_pos_of_pos (by linarith) _
    obtain ⟨k1, k2, k3⟩ := powf_neg_base hy hb hneg hq.ne'
    by_cases hi : isInt q
    · by_cases ho : isOdd q
      · have := (Is.one.sub (k2 hi ho)).eq hc; linarith
      · have := (Is.one.sub (k3 hi ho)).eq hc; linarith
    · rw [k1 hi] at hc
      exact hc.ne_nan (by show 1 + -nan = nan; rw [neg_nan, add_nan])
  · obtain ⟨k1, k2, k3⟩ := powf_neg_base hx ha ht0 hp.ne'
    have hs0 : 0 < (-t) ^ p := Real.rpow_pos_of_pos (by linarith) _
    have hs1 : (-t) ^ p < 1 := Real.rpow_lt_one (by linarith) (by linarith) hp
    have e : (Kumaraswamy.cdf ⟨a, b⟩ x).val = 1 - (1 - x.powf a).powf b := rfl
    rw [e] at hc
    by_cases hi : isInt p
    · by_cases ho : isOdd p
      · have j := Is.one.sub (Is.powf (Is.one.sub (k2 hi ho)) hb (by linarith))
        have := Real.one_lt_rpow (show 1 < 1 - -(-t) ^ p by linarith) hq
        linarith [j.eq hc]
      · have j := Is.one.sub (Is.powf (Is.one.sub (k3 hi ho)) hb (by linarith))
        have := Real.rpow_lt_one (show 0 ≤ 1 - (-t) ^ p by linarith) (by linarith) hq
        linarith [j.eq hc]
    · rw [k1 hi, show (1 : F64) - nan = nan by (show 1 + -nan = nan; rw [neg_nan, add_nan]), nanp] at hc
      exact hc.ne_nan (by show 1 + -nan = nan; rw [neg_nan, add_nan])
  · obtain ⟨y, hy, hneg, e⟩ := above x t hx ht
    obtain ⟨k1, k2, k3⟩ := powf_neg_base hy hb hneg hq.ne'
    have : (Kumaraswamy.cdf ⟨a, b⟩ x).val = nan := by
      rw [e, k1 (fun ⟨n, hn'⟩ => hn n hn')]; show 1 + -nan = nan; rw [neg_nan, add_nan]
    exact ⟨this, fun hv => F64.not_nan_le _ (this ▸ hv.1)⟩

end

section
attribute [local instance] exactFP exactFP_exact
example : ∃ d, Kumaraswamy.new (fin 2) (fin (7/2)) = .ok d ∧ (∃ y x, d.modes = [y] ∧ y.Is x ∧ IsMode (kumaraswamyPDF 2 (7/2)) x) ∧
    (∃ r e, d.shannonEntropy.Is r ∧ HasEntropy (kumaraswamyPDF 2 (7/2)) e ∧ r ≠ e) := by
  have h : Kumaraswamy.new (fin 2) (fin (7/2)) = .ok ⟨fin 2, fin (7/2)⟩ :=
    Kumaraswamy.new_ok.2 ⟨fin_lt_fin.2 (by norm_num), fin_lt_fin.2 (by norm_num), rfl⟩
  obtain ⟨-, -, -, -, -, -, -, -, -, -, hm, -⟩ := C72_kumaraswamy h (Is.fin _) (Is.fin _)
  refine ⟨_, h, hm (by norm_num) (by norm_num), C113_kumaraswamy_entropy_violated h (Is.fin _) (Is.fin _) (by norm_num) fun n _ hn => ?_⟩
  have h7 : (7:ℝ) = 2 * n := by linarith
  have : (7:ℕ) = 2 * n := by exact_mod_cast h7
  omega
end
end Rstat
