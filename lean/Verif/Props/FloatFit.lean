import Verif.Props.Normal
import Verif.Props.Dist.Bernoulli
import Verif.Props.Dist.Poisson
import Verif.Props.FloatPmf4
import Verif.Props.FloatMean

/-! Property C258: maximum-likelihood fits in rounded arithmetic, for every sample. -/
set_option linter.unusedSectionVars false
namespace Rstat
open F64 Spec

section
variable [FP] [FP.Lawful]

/-- no overflow below 2^1000 -/
theorem nh_1000 {x : ℝ} (h : |x| ≤ 2 ^ 1000) : ¬ FP.huge (FP.rnd x) := by
  apply FP.Lawful.not_huge
  have e := FP.Lawful.rnd_err x
  have h2 : |FP.rnd x| ≤ |FP.rnd x - x| + |x| := by
    have := abs_add_le (FP.rnd x - x) x
    rwa [sub_add_cancel] at this
  have h3 : |x| / 2 ^ 53 ≤ |x| := div_le_self (abs_nonneg _) (by norm_num)
  have h4 : (1:ℝ) / 2 ^ 1075 ≤ 2 ^ 1000 := by
    rw [div_le_iff₀ (by positivity), ← pow_add]
    exact one_le_pow₀ (by norm_num)
  have h5 : (2:ℝ) ^ 1000 * 4 ≤ 2 ^ 1023 := by
    rw [show (4:ℝ) = 2 ^ 2 by norm_num, ← pow_add]
    exact pow_le_pow_right₀ (by norm_num) (by norm_num)
  generalize (2:ℝ) ^ 1000 = M at *
  generalize (2:ℝ) ^ 1023 = M' at *
  generalize (1:ℝ) / 2 ^ 1075 = τ at *
  linarith

theorem ofNat53 {n : ℕ} (h : n ≤ 2 ^ 53) : (F64.ofNat n).Is n := by
  have e : FP.rnd (n : ℝ) = n := by
    simpa using FP.Lawful.rnd_dyadic (n : ℤ) 0 (by rw [abs_of_nonneg (by positivity)]; exact_mod_cast h) (by norm_num)
  have := round_is_of_le (r := (n : ℝ)) n h (by rw [abs_of_nonneg (by positivity)])
  rwa [e] at this

/-- accumulated rounding error of a left-to-right sum whose terms are themselves inexact -/
theorem fsum_err {X : Type} (f : X → F64) (φ : X → ℝ) {n : ℕ} {ε B : ℝ} (hn : n ≤ 2 ^ 50) (hB : 0 ≤ B) (hε : 0 ≤ ε)
    (hm : B + ε ≤ 2 ^ 900) (xs : List X) : ∀ (acc : F64) (k : ℕ) (y s : ℝ), k + xs.length ≤ n →
    (∀ x ∈ xs, Within (f x) (φ x) ε ∧ |φ x| ≤ B) → acc.Is y → |s| ≤ k * B →
    |y - s| ≤ k * (ε + (n * (B + ε) / 2 ^ 52 + 2 * (1 / 2 ^ 1075))) →
    ∃ y', (xs.foldl (fun a x => a + f x) acc).Is y' ∧
      |y' - (s + (xs.map φ).sum)| ≤ (k + xs.length : ℕ) * (ε + (n * (B + ε) / 2 ^ 52 + 2 * (1 / 2 ^ 1075))) := by
  induction xs with
  | nil => intro acc k y s _ _ hy _ he; exact ⟨y, hy, by simpa using he⟩
  | cons x xs ih =>
    intro acc k y s hk hx hy hs he
    obtain ⟨⟨z, hz, hze⟩, hzb⟩ := hx x (by simp)
    have hk' : k + 1 + xs.length ≤ n := by simp at hk; omega
    have hkn : (k : ℝ) + 1 ≤ n := by
      have : k + 1 ≤ n := by omega
      exact_mod_cast this
    have hn' : (n : ℝ) ≤ 2 ^ 50 := by exact_mod_cast hn
    have hk0 : (0:ℝ) ≤ k := by positivity
    have ht0 : (0:ℝ) < 1 / 2 ^ 1075 := by positivity
    have ht : (1:ℝ) / 2 ^ 1075 ≤ 1 := by rw [div_le_one (by positivity)]; exact one_le_pow₀ (by norm_num)
    have hbig : (2:ℝ) ^ 900 * 2 ^ 60 ≤ 2 ^ 1000 := by rw [← pow_add]; exact pow_le_pow_right₀ (by norm_num) (by norm_num)
    have h9 : (1:ℝ) ≤ 2 ^ 900 := one_le_pow₀ (by norm_num)
    have err := FP.Lawful.rnd_err (y + z)
    have habs : |y + z| ≤ n * (B + ε) * (5 / 4) + n * (2 * (1 / 2 ^ 1075)) := by
      have h1 : |y + z| ≤ |y - s| + |s| + (|z - φ x| + |φ x|) := by
        have a1 := abs_add_le (y - s) s
        have a2 := abs_add_le (z - φ x) (φ x)
        have a3 := abs_add_le y z
        rw [sub_add_cancel] at a1 a2
        linarith
      have h2 : (k:ℝ) * (ε + (n * (B + ε) / 2 ^ 52 + 2 * (1 / 2 ^ 1075))) + k * B + (ε + B) ≤
          n * (B + ε) * (5 / 4) + n * (2 * (1 / 2 ^ 1075)) := by
        have h3 : (k:ℝ) * (n * (B + ε) / 2 ^ 52) ≤ n * (B + ε) * (1 / 4) := by
          have : (k:ℝ) ≤ 2 ^ 50 := by linarith
          have h5 : 0 ≤ n * (B + ε) := by positivity
          calc (k:ℝ) * (n * (B + ε) / 2 ^ 52) ≤ 2 ^ 50 * (n * (B + ε) / 2 ^ 52) :=
                mul_le_mul_of_nonneg_right this (by positivity)
            _ = n * (B + ε) * (1 / 4) := by ring
        have h4 : (k:ℝ) * (ε + B) + (ε + B) ≤ n * (B + ε) := by nlinarith
        have h5 : (k:ℝ) * (2 * (1 / 2 ^ 1075)) ≤ n * (2 * (1 / 2 ^ 1075)) :=
          mul_le_mul_of_nonneg_right (by linarith) (by positivity)
        generalize (1:ℝ) / 2 ^ 1075 = τ at *
        linarith
      linarith
    have hnh : ¬ FP.huge (FP.rnd (y + z)) := by
      refine nh_1000 (habs.trans ?_)
      have h1 : (n:ℝ) * (B + ε) ≤ 2 ^ 50 * 2 ^ 900 := mul_le_mul hn' hm (by positivity) (by positivity)
      have h2 : (n:ℝ) * (2 * (1 / 2 ^ 1075)) ≤ 2 ^ 50 * 2 := mul_le_mul hn' (by linarith) (by positivity) (by positivity)
      generalize (1:ℝ) / 2 ^ 1075 = τ at *
      generalize (2:ℝ) ^ 900 = M at *
      generalize (2:ℝ) ^ 1000 = M' at *
      norm_num at h1 h2 hbig
      linarith
    have step : |FP.rnd (y + z) - (s + φ x)| ≤ (k + 1 : ℕ) * (ε + (n * (B + ε) / 2 ^ 52 + 2 * (1 / 2 ^ 1075))) := by
      have a1 : |FP.rnd (y + z) - (s + φ x)| ≤ |FP.rnd (y + z) - (y + z)| + |y - s| + |z - φ x| := by
        have b1 := abs_add_le (FP.rnd (y + z) - (y + z)) ((y - s) + (z - φ x))
        have b2 := abs_add_le (y - s) (z - φ x)
        rw [show FP.rnd (y + z) - (y + z) + ((y - s) + (z - φ x)) = FP.rnd (y + z) - (s + φ x) by ring] at b1
        linarith
      have a2 : |y + z| / 2 ^ 53 ≤ n * (B + ε) / 2 ^ 52 + 1 / 2 ^ 1075 := by
        have h5 : 0 ≤ n * (B + ε) := by positivity
        have h6 : (n:ℝ) * (2 * (1 / 2 ^ 1075)) ≤ 2 ^ 50 * (2 * (1 / 2 ^ 1075)) :=
          mul_le_mul_of_nonneg_right hn' (by positivity)
        generalize (1:ℝ) / 2 ^ 1075 = τ at *
        rw [div_le_iff₀ (by norm_num)]
        norm_num at h6 ⊢
        linarith
      push_cast
      generalize (1:ℝ) / 2 ^ 1075 = τ at *
      linarith
    obtain ⟨y', h1, h2⟩ := ih (acc + f x) (k + 1) (FP.rnd (y + z)) (s + φ x) hk' (fun x' h => hx x' (by simp [h]))
      (add_is hy hz hnh) (by push_cast; have := abs_add_le s (φ x); linarith) step
    refine ⟨y', h1, ?_⟩
    rw [List.map_cons, List.sum_cons, List.length_cons, show k + (xs.length + 1) = k + 1 + xs.length by ring, ← add_assoc]
    exact h2

omit [FP] [FP.Lawful] in
theorem count_fold (xs : List Bool) : ∀ a : ℕ, xs.foldl (fun acc (x : Bool) => acc + x.toNat) a = a + xs.count true := by
  induction xs with
  | nil => intro a; rfl
  | cons x xs ih => intro a; rw [List.foldl_cons, ih]; cases x <;> simp <;> omega

omit [FP] [FP.Lawful] in
theorem count_both (xs : List Bool) : xs.count true + xs.count false = xs.length := by
  induction xs with
  | nil => rfl
  | cons x xs ih => cases x <;> simp <;> omega

/-- C258: the Bernoulli fit of every non-empty sample of up to 2^53 outcomes succeeds; the fitted probability is a
number in [0,1], within one rounding of the fraction of successes, and is 0 or 1 exactly when no or every outcome is a success. -/
theorem C258_bernoulli (xs : List Bool) (hne : xs ≠ []) (hn : xs.length ≤ 2 ^ 53) :
    ∃ d y, Bernoulli.fitMle xs = .ok d ∧ d.p.val.Is y ∧ 0 ≤ y ∧ y ≤ 1 ∧
      |y - (xs.count true : ℝ) / xs.length| ≤ (xs.count true : ℝ) / xs.length / 2 ^ 52 ∧
      (y = 0 ↔ true ∉ xs) ∧ (y = 1 ↔ false ∉ xs) := by
  have hl : 0 < xs.length := List.length_pos_iff.2 hne
  have hl' : (0:ℝ) < xs.length := by exact_mod_cast hl
  have hn' : (xs.length : ℝ) ≤ 2 ^ 53 := by exact_mod_cast hn
  have hc : xs.count true ≤ xs.length := List.count_le_length
  have hc' : (xs.count true : ℝ) ≤ xs.length := by exact_mod_cast hc
  set q : ℝ := (xs.count true : ℝ) / xs.length with hqd
  have q0 : 0 ≤ q := by positivity
  have q1 : q ≤ 1 := (div_le_one hl').2 hc'
  have r0 : FP.rnd 0 = 0 := rnd_zero
  have r1 : FP.rnd 1 = 1 := by simpa using FP.Lawful.rnd_dyadic 1 0 (by norm_num) (by norm_num)
  have hy0 : 0 ≤ FP.rnd q := by rw [← r0]; exact FP.Lawful.rnd_mono q0
  have hy1 : FP.rnd q ≤ 1 := by
    have := FP.Lawful.rnd_mono q1
    rwa [r1] at this
  have hi : (F64.ofNat (xs.foldl (fun acc (x : Bool) => acc + x.toNat) 0) / F64.ofNat xs.length).Is (FP.rnd q) := by
    rw [count_fold, zero_add]
    refine div_is (ofNat53 (hc.trans hn)) (ofNat53 hn) hl'.ne' (nh_1000 ?_)
    rw [abs_of_nonneg q0]
    exact q1.trans (one_le_pow₀ (by norm_num))
  refine ⟨_, FP.rnd q, Bernoulli.new_ok.2 ⟨⟨(Is.zero.le_iff hi).2 hy0, (hi.le_iff Is.one).2 hy1⟩, rfl⟩, hi, hy0, hy1, ?_, ?_, ?_⟩
  · rcases Nat.eq_zero_or_pos (xs.count true) with h0 | h0
    · have : q = 0 := by rw [hqd, h0]; simp
      rw [this, r0]; simp
    · have e := FP.Lawful.rnd_err q
      rw [abs_of_nonneg q0] at e
      have h1 : (1:ℝ) ≤ xs.count true := by exact_mod_cast h0
      have h2 : 1 / 2 ^ 53 ≤ q := by
        rw [hqd, div_le_div_iff₀ (by positivity) hl']; linarith
      have h3 : (1:ℝ) / 2 ^ 1075 ≤ 1 / 2 ^ 53 / 2 ^ 53 := by
        rw [div_div, ← pow_add]
        exact one_div_le_one_div_of_le (by positivity) (pow_le_pow_right₀ (by norm_num) (by norm_num))
      generalize (1:ℝ) / 2 ^ 1075 = τ at *
      have h4 : (1:ℝ) / 2 ^ 53 / 2 ^ 53 ≤ q / 2 ^ 53 := div_le_div_of_nonneg_right h2 (by norm_num)
      have h5 : q / 2 ^ 52 = q / 2 ^ 53 + q / 2 ^ 53 := by ring
      linarith
  · rw [← List.count_eq_zero]
    constructor
    · intro h
      by_contra h0
      have h1 : (1:ℝ) ≤ xs.count true := by exact_mod_cast Nat.one_le_iff_ne_zero.2 h0
      have h2 : 1 / 2 ^ 53 ≤ q := by
        rw [hqd, div_le_div_iff₀ (by positivity) hl']; linarith
      have h3 := FP.Lawful.rnd_mono h2
      have h4 := FP.Lawful.rnd_dyadic 1 53 (by norm_num) (by norm_num)
      rw [Int.cast_one] at h4
      rw [h4, h] at h3
      norm_num at h3
    · intro h0
      have : q = 0 := by rw [hqd, h0]; simp
      rw [this, r0]
  · have hcf : xs.count false = 0 ↔ xs.count true = xs.length := by
      have := count_both xs
      omega
    rw [← List.count_eq_zero, hcf]
    constructor
    · intro h
      by_contra h0
      have h1 : (xs.count true : ℝ) + 1 ≤ xs.length := by
        have : xs.count true + 1 ≤ xs.length := by omega
        exact_mod_cast this
      have h2 : q ≤ (2 ^ 53 - 1) / 2 ^ 53 := by
        rw [hqd, div_le_div_iff₀ hl' (by positivity)]; nlinarith
      have h3 := FP.Lawful.rnd_mono h2
      have h4 := FP.Lawful.rnd_dyadic 9007199254740991 53 (by norm_num) (by norm_num)
      rw [show (((9007199254740991 : ℤ) : ℝ) / 2 ^ 53) = (2 ^ 53 - 1) / 2 ^ 53 by norm_num] at h4
      rw [h4, h] at h3
      norm_num at h3
    · intro h0
      have : q = 1 := by rw [hqd, h0]; exact div_self hl'.ne'
      rw [this, r1]

/-- C258: an empty Bernoulli sample is refused. -/
theorem C258_bernoulli_empty : ∃ e, Bernoulli.fitMle [] = .error e := by
  rcases h : Bernoulli.fitMle [] with e | d
  · exact ⟨e, rfl⟩
  · exfalso
    have h1 := (Bernoulli.new_ok.1 h).1.1
    have e0 : (F64.ofNat 0).Is 0 := by simpa using ofNat53 (n := 0) (by norm_num)
    have : F64.ofNat 0 / F64.ofNat 0 = nan := by
      rcases e0 with e | ⟨e, _⟩ <;> rw [e] <;> show F64.div _ _ = _ <;> simp [F64.div, F64.isInf, F64.toReal]
    rw [show ([] : List Bool).length = 0 from rfl, show ([] : List Bool).foldl (fun acc (x : Bool) => acc + x.toNat) 0 = 0 from rfl,
      this] at h1
    exact absurd h1 (by simp)

theorem nat_sum_exact (xs : List ℕ) : ∀ (acc : F64) (s : ℕ), acc.Is s → s + xs.sum ≤ 2 ^ 53 →
    (xs.foldl (fun acc x => acc + F64.ofNat x) acc).Is ((s + xs.sum : ℕ) : ℝ) := by
  induction xs with
  | nil => intro acc s h _; simpa using h
  | cons x xs ih =>
    intro acc s h hs
    rw [List.sum_cons] at hs ⊢
    rw [List.foldl_cons, ← add_assoc]
    refine ih _ (s + x) ?_ (by omega)
    have hb : ((s + x : ℕ) : ℝ) ≤ 2 ^ 53 := by
      have : s + x ≤ 2 ^ 53 := by omega
      exact_mod_cast this
    have e : FP.rnd ((s + x : ℕ) : ℝ) = (s + x : ℕ) := by
      simpa using FP.Lawful.rnd_dyadic ((s + x : ℕ) : ℤ) 0
        (by rw [abs_of_nonneg (by positivity)]; exact_mod_cast (show s + x ≤ 2 ^ 53 by omega)) (by norm_num)
    have := add_is h (ofNat53 (n := x) (by omega)) (nh_1000 (by
      rw [abs_of_nonneg (by positivity), ← Nat.cast_add]
      exact hb.trans (pow_le_pow_right₀ (by norm_num) (by norm_num))))
    rwa [← Nat.cast_add, e] at this

/-- C258: the Poisson fit of a sample of up to 2^53 counts with total up to 2^53 succeeds exactly when the total is
positive, and the fitted rate is within one rounding of the sample mean. -/
theorem C258_poisson (xs : List ℕ) (hn : xs.length ≤ 2 ^ 53) (hs : xs.sum ≤ 2 ^ 53) :
    (0 < xs.sum → ∃ d y, Poisson.fitMle xs = .ok d ∧ d.lambda.Is y ∧
      |y - (xs.sum : ℝ) / xs.length| ≤ (xs.sum : ℝ) / xs.length / 2 ^ 52) ∧
    (xs.sum = 0 → ∃ e, Poisson.fitMle xs = .error e) := by
  have hf := nat_sum_exact xs 0 0 (by simpa using Is.zero) (by omega)
  rw [zero_add] at hf
  have hi := ofNat53 hn
  constructor
  · intro h0
    have hl : 0 < xs.length := by
      rcases xs with _ | _
      · simp at h0
      · simp
    have hl' : (0:ℝ) < xs.length := by exact_mod_cast hl
    have hl1 : (1:ℝ) ≤ xs.length := by exact_mod_cast hl
    have hn' : (xs.length : ℝ) ≤ 2 ^ 53 := by exact_mod_cast hn
    have hs' : (xs.sum : ℝ) ≤ 2 ^ 53 := by exact_mod_cast hs
    have h1 : (1:ℝ) ≤ xs.sum := by exact_mod_cast h0
    set q : ℝ := (xs.sum : ℝ) / xs.length with hqd
    have h2 : 1 / 2 ^ 53 ≤ q := by
      rw [hqd, div_le_div_iff₀ (by positivity) hl']; linarith
    have q0 : 0 < q := by positivity
    have hd : (xs.foldl (fun acc x => acc + F64.ofNat x) (0 : F64) / F64.ofNat xs.length).Is (FP.rnd q) := by
      refine div_is hf hi hl'.ne' (nh_1000 ?_)
      rw [abs_of_pos q0]
      have : q ≤ 2 ^ 53 := by rw [hqd, div_le_iff₀ hl']; nlinarith
      exact this.trans (pow_le_pow_right₀ (by norm_num) (by norm_num))
    have hp : 0 < FP.rnd q := by
      have h3 := FP.Lawful.rnd_mono h2
      have h4 := FP.Lawful.rnd_dyadic 1 53 (by norm_num) (by norm_num)
      rw [Int.cast_one] at h4
      rw [h4] at h3
      have : (0:ℝ) < 1 / 2 ^ 53 := by positivity
      linarith
    refine ⟨_, FP.rnd q, Poisson.new_ok.2 ⟨(Is.zero.lt_iff hd).2 hp, rfl⟩, hd, ?_⟩
    have e := FP.Lawful.rnd_err q
    rw [abs_of_pos q0] at e
    have h3 : (1:ℝ) / 2 ^ 1075 ≤ 1 / 2 ^ 53 / 2 ^ 53 := by
      rw [div_div, ← pow_add]
      exact one_div_le_one_div_of_le (by positivity) (pow_le_pow_right₀ (by norm_num) (by norm_num))
    generalize (1:ℝ) / 2 ^ 1075 = τ at *
    have h4 : (1:ℝ) / 2 ^ 53 / 2 ^ 53 ≤ q / 2 ^ 53 := div_le_div_of_nonneg_right h2 (by norm_num)
    have h5 : q / 2 ^ 52 = q / 2 ^ 53 + q / 2 ^ 53 := by ring
    linarith
  · intro h0
    rw [h0, Nat.cast_zero] at hf
    have hnot : ¬ (0 : F64) < (xs.foldl (fun acc x => acc + F64.ofNat x) (0 : F64)) / F64.ofNat xs.length := by
      rcases Nat.eq_zero_or_pos xs.length with h1 | h1
      · rw [h1] at hi ⊢
        rw [Nat.cast_zero] at hi
        have : (xs.foldl (fun acc x => acc + F64.ofNat x) (0 : F64)) / F64.ofNat 0 = nan := by
          rcases hf with e | ⟨e, _⟩ <;> rcases hi with e' | ⟨e', _⟩ <;> rw [e, e'] <;> show F64.div _ _ = _ <;>
            simp [F64.div, F64.isInf, F64.toReal]
        rw [this]; exact F64.not_lt_nan _
      · have hn' : (0:ℝ) < xs.length := by exact_mod_cast h1
        have := div_is hf hi hn'.ne' (nh_1000 (by simp))
        rw [zero_div, rnd_zero] at this
        rw [Is.zero.lt_iff this]; simp
    unfold Poisson.fitMle
    rcases hr : Poisson.new ((xs.foldl (fun acc x => acc + F64.ofNat x) (0 : F64)) / F64.ofNat xs.length) with e | d
    · exact ⟨e, rfl⟩
    · exact absurd (Poisson.new_ok.1 hr).1 hnot

/-- a rounded result is close to a target its exact argument is close to -/
theorem rnd_target {x t ε M : ℝ} (h : |x - t| ≤ ε) (hM : |t| ≤ M) :
    |FP.rnd x - t| ≤ ε + (M + ε) / 2 ^ 53 + 1 / 2 ^ 1075 := by
  have e := FP.Lawful.rnd_err x
  have h1 := abs_add_le (FP.rnd x - x) (x - t)
  rw [sub_add_sub_cancel] at h1
  have h2 := abs_add_le (x - t) t
  rw [sub_add_cancel] at h2
  have h3 : |x| / 2 ^ 53 ≤ (M + ε) / 2 ^ 53 := div_le_div_of_nonneg_right (by linarith) (by norm_num)
  generalize (1:ℝ) / 2 ^ 1075 = τ at *
  linarith

/-- C258 (what holds): for every sample of up to 2^50 values of magnitude up to `A` (between 2^-400 and 2^400) whose
empirical variance is not within the rounding error of zero, the normal fit succeeds; the fitted mean and variance are
within `(n+2)A/2^52` and `12(n+3)A²/2^52` of the empirical ones. -/
theorem C258_normal_partial {xs : List F64} {rs : List ℝ} (hx : List.Forall₂ Is xs rs) (hne : rs ≠ [])
    (hn : rs.length ≤ 2 ^ 50) {A : ℝ} (hA0 : 1 / 2 ^ 400 ≤ A) (hA1 : A ≤ 2 ^ 400) (hA : ∀ r ∈ rs, |r| ≤ A)
    (hv : 12 * ((rs.length : ℝ) + 3) * A ^ 2 / 2 ^ 52 < empVar rs) :
    ∃ d m v, UvNormal.fitMle xs = .ok d ∧ d.mu.Is m ∧ d.Sigma.Is v ∧
      |m - empMean rs| ≤ ((rs.length : ℝ) + 2) * A / 2 ^ 52 ∧
      |v - empVar rs| ≤ 12 * ((rs.length : ℝ) + 3) * A ^ 2 / 2 ^ 52 := by
  have hl : 0 < rs.length := List.length_pos_iff.2 hne
  obtain ⟨n, hnd⟩ : ∃ n, rs.length = n := ⟨_, rfl⟩
  have hxl : xs.length = n := by rw [hx.length_eq, hnd]
  rw [hnd] at hl hn hv ⊢
  have hn1 : (1:ℝ) ≤ n := by exact_mod_cast hl
  have hn' : (n:ℝ) ≤ 2 ^ 50 := by exact_mod_cast hn
  have hnp : (0:ℝ) < n := by linarith
  have hA00 : (0:ℝ) < 1 / 2 ^ 400 := by positivity
  have Ap : 0 < A := by linarith
  have ht0 : (0:ℝ) < 1 / 2 ^ 1075 := by positivity
  -- the underflow term is negligible
  have htA : (1:ℝ) / 2 ^ 1075 ≤ A ^ 2 / 2 ^ 60 := by
    have h1 : ((1:ℝ) / 2 ^ 400) ^ 2 ≤ A ^ 2 := pow_le_pow_left₀ hA00.le hA0 2
    have h2 : (1:ℝ) / 2 ^ 1075 ≤ (1 / 2 ^ 400) ^ 2 / 2 ^ 60 := by
      rw [one_div_pow, ← pow_mul, div_div, ← pow_add]
      exact one_div_le_one_div_of_le (by positivity) (pow_le_pow_right₀ (by norm_num) (by norm_num))
    exact h2.trans (div_le_div_of_nonneg_right h1 (by norm_num))
  have htA1 : (1:ℝ) / 2 ^ 1075 ≤ A / 2 ^ 60 := by
    have h2 : (1:ℝ) / 2 ^ 1075 ≤ 1 / 2 ^ 400 / 2 ^ 60 := by
      rw [div_div, ← pow_add]
      exact one_div_le_one_div_of_le (by positivity) (pow_le_pow_right₀ (by norm_num) (by norm_num))
    exact h2.trans (div_le_div_of_nonneg_right hA0 (by norm_num))
  have big1 : ∀ z : ℝ, |z| ≤ 64 * A → ¬ FP.huge (FP.rnd z) := fun z hz => nh_1000 (hz.trans (by
    have : (64:ℝ) * 2 ^ 400 ≤ 2 ^ 1000 := by
      rw [show (64:ℝ) = 2 ^ 6 by norm_num, ← pow_add]; exact pow_le_pow_right₀ (by norm_num) (by norm_num)
    generalize (2:ℝ) ^ 400 = M at *
    generalize (2:ℝ) ^ 1000 = M' at *
    linarith))
  have hA2 : A ^ 2 ≤ 2 ^ 800 := by
    have := pow_le_pow_left₀ Ap.le hA1 2
    rwa [← pow_mul] at this
  have big2 : ∀ z : ℝ, |z| ≤ 64 * A ^ 2 → ¬ FP.huge (FP.rnd z) := fun z hz => nh_1000 (hz.trans (by
    have : (64:ℝ) * 2 ^ 800 ≤ 2 ^ 1000 := by
      rw [show (64:ℝ) = 2 ^ 6 by norm_num, ← pow_add]; exact pow_le_pow_right₀ (by norm_num) (by norm_num)
    generalize (2:ℝ) ^ 800 = M at *
    generalize (2:ℝ) ^ 1000 = M' at *
    linarith))
  have h900 : 64 * A ^ 2 ≤ 2 ^ 900 := by
    have : (64:ℝ) * 2 ^ 800 ≤ 2 ^ 900 := by
      rw [show (64:ℝ) = 2 ^ 6 by norm_num, ← pow_add]; exact pow_le_pow_right₀ (by norm_num) (by norm_num)
    generalize (2:ℝ) ^ 800 = M at *
    generalize (2:ℝ) ^ 900 = M' at *
    linarith
  have h900' : A ≤ 2 ^ 900 := hA1.trans (pow_le_pow_right₀ (by norm_num) (by norm_num))
  -- the pairs (sample, its real value)
  obtain ⟨ps, hp1, hp2, hpI⟩ : ∃ ps : List (F64 × ℝ), ps.map Prod.fst = xs ∧ ps.map Prod.snd = rs ∧
      ∀ p ∈ ps, p.1.Is p.2 ∧ |p.2| ≤ A := by
    refine ⟨xs.zip rs, List.map_fst_zip hx.length_eq.le, List.map_snd_zip hx.length_eq.ge, ?_⟩
    rintro ⟨a, b⟩ hab
    exact ⟨(List.forall₂_iff_zip.1 hx).2 hab, hA _ (List.of_mem_zip hab).2⟩
  have hpl : ps.length = n := by rw [← hxl, ← hp1, List.length_map]
  -- the mean
  obtain ⟨S, hS, hSe⟩ := fsum_err (fun p : F64 × ℝ => p.1) (fun p => p.2) (n := n) (ε := 0) (B := A) hn Ap.le le_rfl
    (by rw [add_zero]; exact h900') ps 0 0 0 0 (by omega)
    (fun p hp => ⟨⟨p.2, (hpI p hp).1, by simp⟩, (hpI p hp).2⟩) Is.zero (by simp) (by simp)
  have hfold : ps.foldl (fun a p => a + p.1) (0 : F64) = xs.foldl (fun acc x => acc + x) 0 := by
    rw [← hp1, List.foldl_map]
  rw [hfold] at hS
  have hsum : (ps.map fun p => p.2) = rs := hp2
  rw [hsum, zero_add, zero_add, hpl] at hSe
  have hmA : |empMean rs| ≤ A := by
    unfold empMean
    rw [abs_div, hnd, abs_of_pos hnp, div_le_iff₀ hnp]
    have : ∀ l : List ℝ, (∀ r ∈ l, |r| ≤ A) → |l.sum| ≤ A * l.length := by
      intro l
      induction l with
      | nil => intro _; simp
      | cons a l ih =>
        intro h
        have h1 := h a (by simp)
        have h2 := ih fun r hr => h r (by simp [hr])
        have h3 := abs_add_le a l.sum
        rw [List.sum_cons, List.length_cons]; push_cast; linarith
    have := this rs hA
    rwa [hnd] at this
  have hSn : |S / n - empMean rs| ≤ n * A / 2 ^ 52 + 2 * (1 / 2 ^ 1075) := by
    have e : S / n - empMean rs = (S - rs.sum) / n := by unfold empMean; rw [hnd]; ring
    rw [e, abs_div, abs_of_pos hnp, div_le_iff₀ hnp]
    calc _ ≤ _ := hSe
      _ = _ := by ring
  have hnA : (n:ℝ) * A / 2 ^ 52 ≤ A / 4 := by
    rw [div_le_iff₀ (by norm_num)]
    nlinarith
  have hm := rnd_target hSn hmA
  have hm2 : |FP.rnd (S / n) - empMean rs| ≤ ((n:ℝ) + 2) * A / 2 ^ 52 := by
    generalize (1:ℝ) / 2 ^ 1075 = τ at *
    norm_num at hm htA1 hnA ⊢
    linarith
  set m := FP.rnd (S / n) with hmdef
  have hmean : (xs.foldl (fun acc x => acc + x) (0 : F64) / F64.ofNat xs.length).Is m := by
    rw [hxl]
    refine div_is hS (ofNat53 (hn.trans (by norm_num))) hnp.ne' (big1 _ ?_)
    have h1 := abs_add_le (S / n - empMean rs) (empMean rs)
    rw [sub_add_cancel] at h1
    generalize (1:ℝ) / 2 ^ 1075 = τ at *
    norm_num at htA1
    linarith
  have hfit : UvNormal.fitMle xs = UvNormal.new (xs.foldl (fun acc x => acc + x) (0 : F64) / F64.ofNat xs.length)
      ((xs.map fun x => x - (xs.foldl (fun acc x => acc + x) (0 : F64) / F64.ofNat xs.length)).foldl
        (fun acc r => acc + r * r) 0 / F64.ofNat xs.length) := rfl
  generalize xs.foldl (fun acc x => acc + x) (0 : F64) / F64.ofNat xs.length = mF at hmean hfit
  have hnA2 : (n:ℝ) * A ^ 2 / 2 ^ 52 ≤ A ^ 2 / 4 := by
    rw [div_le_iff₀ (by norm_num)]
    nlinarith [sq_nonneg A]
  have A2p : 0 < A ^ 2 := by positivity
  -- the squared residuals
  have hterm : ∀ p ∈ ps, Within ((p.1 - mF) * (p.1 - mF)) ((p.2 - empMean rs) ^ 2) ((5 * (n:ℝ) + 22) * A ^ 2 / 2 ^ 52) ∧
      |(p.2 - empMean rs) ^ 2| ≤ 4 * A ^ 2 := by
    intro p hp
    obtain ⟨hpi, hpa⟩ := hpI p hp
    have hD : |p.2 - empMean rs| ≤ 2 * A := by have := abs_sub p.2 (empMean rs); linarith
    have hd0 : |p.2 - m - (p.2 - empMean rs)| ≤ ((n:ℝ) + 2) * A / 2 ^ 52 := by
      rw [show p.2 - m - (p.2 - empMean rs) = -(m - empMean rs) by ring, abs_neg]; exact hm2
    have hd1 := rnd_target hd0 hD
    have hd2 : |FP.rnd (p.2 - m) - (p.2 - empMean rs)| ≤ ((n:ℝ) + 4) * A / 2 ^ 52 := by
      generalize (1:ℝ) / 2 ^ 1075 = τ at *
      norm_num at hd1 htA1 hnA ⊢
      linarith
    have hz : (p.1 - mF).Is (FP.rnd (p.2 - m)) := by
      refine sub_is hpi hmean (big1 _ ?_)
      have h1 := abs_add_le (p.2 - m - (p.2 - empMean rs)) (p.2 - empMean rs)
      rw [sub_add_cancel] at h1
      replace h1 := h1.trans (add_le_add hd0 hD)
      norm_num at h1 hnA
      linarith
    generalize FP.rnd (p.2 - m) = z at hd2 hz
    generalize p.2 - empMean rs = D at hd2 hD
    have hsq : |z * z - D ^ 2| ≤ (9 / 2 * (n:ℝ) + 18) * A ^ 2 / 2 ^ 52 := by
      rw [show z * z - D ^ 2 = (z - D) * (z - D + 2 * D) by ring, abs_mul]
      have h1 : |z - D + 2 * D| ≤ 9 / 2 * A := by
        have h2 := abs_add_le (z - D) (2 * D)
        rw [abs_mul, abs_two] at h2
        norm_num at hd2 hnA
        linarith
      calc |z - D| * |z - D + 2 * D| ≤ ((n:ℝ) + 4) * A / 2 ^ 52 * (9 / 2 * A) :=
            mul_le_mul hd2 h1 (abs_nonneg _) (by positivity)
        _ = _ := by ring
    have hD2 : |D ^ 2| ≤ 4 * A ^ 2 := by
      rw [abs_pow, show 4 * A ^ 2 = (2 * A) ^ 2 by ring]
      exact pow_le_pow_left₀ (abs_nonneg _) hD 2
    refine ⟨⟨FP.rnd (z * z), mul_is hz hz (big2 _ ?_), ?_⟩, hD2⟩
    · have h1 := abs_add_le (z * z - D ^ 2) (D ^ 2)
      rw [sub_add_cancel] at h1
      norm_num at hsq hnA2
      linarith
    · have h1 := rnd_target hsq hD2
      have hnn : 0 ≤ (n:ℝ) * A ^ 2 := by positivity
      generalize (1:ℝ) / 2 ^ 1075 = τ at *
      norm_num at h1 htA hnA2 ⊢
      linarith
  have hε : (5 * (n:ℝ) + 22) * A ^ 2 / 2 ^ 52 ≤ 2 * A ^ 2 := by
    norm_num at hnA2 ⊢; linarith
  obtain ⟨V, hV, hVe⟩ := fsum_err (fun p : F64 × ℝ => (p.1 - mF) * (p.1 - mF)) (fun p => (p.2 - empMean rs) ^ 2) (n := n)
    (ε := (5 * (n:ℝ) + 22) * A ^ 2 / 2 ^ 52) (B := 4 * A ^ 2) hn (by positivity) (by positivity) (by
      generalize (2:ℝ) ^ 900 = M' at *
      linarith) ps 0 0 0 0 (by omega) hterm Is.zero (by simp) (by simp)
  have hfold2 : ps.foldl (fun a p => a + (p.1 - mF) * (p.1 - mF)) (0 : F64) =
      (xs.map fun x => x - mF).foldl (fun acc r => acc + r * r) 0 := by
    rw [← hp1, List.map_map, List.foldl_map]; rfl
  rw [hfold2] at hV
  have hsum2 : (ps.map fun p => (p.2 - empMean rs) ^ 2) = rs.map fun x => (x - empMean rs) ^ 2 := by
    rw [← hp2, List.map_map]; rfl
  rw [hsum2, zero_add, zero_add, hpl] at hVe
  have hVn : |V / n - empVar rs| ≤ (11 * (n:ℝ) + 23) * A ^ 2 / 2 ^ 52 := by
    have e : V / n - empVar rs = (V - (rs.map fun x => (x - empMean rs) ^ 2).sum) / n := by unfold empVar; rw [hnd]; ring
    rw [e, abs_div, abs_of_pos hnp, div_le_iff₀ hnp]
    refine hVe.trans ?_
    rw [mul_comm]
    refine mul_le_mul_of_nonneg_right ?_ hnp.le
    have h1 : (n:ℝ) * (4 * A ^ 2 + (5 * (n:ℝ) + 22) * A ^ 2 / 2 ^ 52) ≤ n * (6 * A ^ 2) :=
      mul_le_mul_of_nonneg_left (by linarith) hnp.le
    generalize (n:ℝ) * (4 * A ^ 2 + (5 * (n:ℝ) + 22) * A ^ 2 / 2 ^ 52) = W at *
    generalize (1:ℝ) / 2 ^ 1075 = τ at *
    norm_num at htA ⊢
    linarith
  have hEv : |empVar rs| ≤ 4 * A ^ 2 := by
    unfold empVar
    rw [abs_div, hnd, abs_of_pos hnp, div_le_iff₀ hnp, abs_of_nonneg (sum_nonneg_list _ _), ← hsum2, ← hpl]
    have : ∀ l : List (F64 × ℝ), (∀ p ∈ l, |(p.2 - empMean rs) ^ 2| ≤ 4 * A ^ 2) →
        (l.map fun p => (p.2 - empMean rs) ^ 2).sum ≤ 4 * A ^ 2 * l.length := by
      intro l
      induction l with
      | nil => intro _; simp
      | cons a l ih =>
        intro h
        have h1 := (le_abs_self _).trans (h a (by simp))
        have h2 := ih fun r hr => h r (by simp [hr])
        rw [List.map_cons, List.sum_cons, List.length_cons]; push_cast; linarith
    exact this ps fun p hp => (hterm p hp).2
  have hvr := rnd_target hVn hEv
  have hvf : |FP.rnd (V / n) - empVar rs| ≤ 12 * ((n:ℝ) + 3) * A ^ 2 / 2 ^ 52 := by
    have hnn : 0 ≤ (n:ℝ) * A ^ 2 := by positivity
    generalize (1:ℝ) / 2 ^ 1075 = τ at *
    norm_num at hvr htA hnA2 ⊢
    linarith
  have hvar : ((xs.map fun x => x - mF).foldl (fun acc r => acc + r * r) (0 : F64) / F64.ofNat xs.length).Is
      (FP.rnd (V / n)) := by
    rw [hxl]
    refine div_is hV (ofNat53 (hn.trans (by norm_num))) hnp.ne' (big2 _ ?_)
    have h1 := abs_add_le (V / n - empVar rs) (empVar rs)
    rw [sub_add_cancel] at h1
    norm_num at hVn hnA2
    linarith
  have hpos : 0 < FP.rnd (V / n) := by have := (abs_le.1 hvf).1; linarith
  exact ⟨_, m, _, hfit.trans <| UvNormal.new_ok.2 ⟨(Is.zero.lt_iff hvar).2 hpos, rfl⟩, hmean, hvar, hm2, hvf⟩
end

section
open B64
attribute [local instance] binary64 binary64_lawful

theorem rnd_tiny_zero {x : ℝ} (h : |x| ≤ (1 / 2) ^ 1075) : rnd x = 0 := by
  have h1 := rnd_mono (abs_le.1 h).2
  have h2 := rnd_mono (abs_le.1 h).1
  rw [rnd_neg] at h2
  rw [rnd_tie_zero] at h1 h2
  linarith

/-- a sum of zeros is zero -/
theorem zero_fold {X : Type} (f : X → F64) (xs : List X) : ∀ acc : F64, acc.Is 0 → (∀ x ∈ xs, (f x).Is 0) →
    (xs.foldl (fun a x => a + f x) acc).Is 0 := by
  induction xs with
  | nil => intro acc h _; exact h
  | cons x xs ih =>
    intro acc h hx
    refine ih _ ?_ fun y hy => hx y (by simp [hy])
    have := add_is h (hx x (by simp)) (nh_1000 (by simp))
    rwa [add_zero, show FP.rnd (0:ℝ) = 0 from B64.rnd_zero] at this

/-- an infinite accumulator stays infinite -/
theorem inf_fold {X : Type} (f : X → F64) (xs : List X) (hx : ∀ x ∈ xs, pinf + f x = pinf) :
    xs.foldl (fun a x => a + f x) pinf = pinf := by
  induction xs with
  | nil => rfl
  | cons x xs ih => rw [List.foldl_cons, hx x (by simp)]; exact ih fun y hy => hx y (by simp [hy])

theorem addv {a b : F64} {r s v : ℝ} (ha : a.Is r) (hb : b.Is s) (h : rnd (r + s) = v) (hv : |v| < 2 ^ 1024) : (a + b).Is v := by
  have := add_is ha hb (show ¬ (2:ℝ) ^ 1024 ≤ |rnd (r + s)| by rw [h]; exact not_le.2 hv)
  rwa [show FP.rnd (r + s) = v from h] at this
theorem subv {a b : F64} {r s v : ℝ} (ha : a.Is r) (hb : b.Is s) (h : rnd (r - s) = v) (hv : |v| < 2 ^ 1024) : (a - b).Is v := by
  have := sub_is ha hb (show ¬ (2:ℝ) ^ 1024 ≤ |rnd (r - s)| by rw [h]; exact not_le.2 hv)
  rwa [show FP.rnd (r - s) = v from h] at this
theorem mulv {a b : F64} {r s v : ℝ} (ha : a.Is r) (hb : b.Is s) (h : rnd (r * s) = v) (hv : |v| < 2 ^ 1024) : (a * b).Is v := by
  have := mul_is ha hb (show ¬ (2:ℝ) ^ 1024 ≤ |rnd (r * s)| by rw [h]; exact not_le.2 hv)
  rwa [show FP.rnd (r * s) = v from h] at this
theorem divv {a b : F64} {r s v : ℝ} (ha : a.Is r) (hb : b.Is s) (hs : s ≠ 0) (h : rnd (r / s) = v) (hv : |v| < 2 ^ 1024) :
    (a / b).Is v := by
  have := div_is ha hb hs (show ¬ (2:ℝ) ^ 1024 ≤ |rnd (r / s)| by rw [h]; exact not_le.2 hv)
  rwa [show FP.rnd (r / s) = v from h] at this

/-- C258 (violated), in binary64: (1) the fit of three equal samples, which has no variance, is accepted for every value
`k/2^j` with `k ≡ 2 mod 4` and `2^54/3 ≤ k < 2^53` (an eighth of all significands above 2^54/3), with variance `4^-j` and a mean
next to the samples; -/
theorem C258_normal_constant_violated (i j : ℕ) (hj : j ≤ 500) (h1 : 2 ^ 54 ≤ 3 * (4 * i + 2)) (h2 : 4 * i + 2 < 2 ^ 53)
    {c : F64} (hc : c = fin ((4 * i + 2) / 2 ^ j)) :
    ∃ d m v, UvNormal.fitMle [c, c, c] = .ok d ∧ d.mu.Is m ∧ d.Sigma.Is v ∧ m ≠ (4 * i + 2) / 2 ^ j ∧ v = 1 / 4 ^ j := by
  set U : ℝ := 2 ^ (-(j:ℤ)) with hU
  have U0 : 0 < U := two_zpow_pos _
  have U1 : U ≤ 1 := by
    rw [hU, zpow_neg, zpow_natCast]; exact inv_le_one_of_one_le₀ (one_le_pow₀ (by norm_num))
  have hUj : (1:ℝ) / 2 ^ j = U := by rw [hU, zpow_neg, zpow_natCast, one_div]
  have hcv : ((4 * i + 2 : ℝ)) / 2 ^ j = (4 * i + 2) * U := by rw [← hUj]; ring
  have ks : ∀ n : ℤ, (2:ℝ) ^ (-(j:ℤ) + n) = U * 2 ^ n := fun n => by rw [zpow_add₀ (by norm_num)]
  have h1r : (2:ℝ) ^ 54 ≤ 3 * (4 * i + 2) := by exact_mod_cast h1
  have h2r : (4 * i + 2 : ℝ) ≤ 2 ^ 53 - 2 := by
    have : 4 * i + 2 + 2 ≤ 2 ^ 53 := by omega
    have : ((4 * i + 2 + 2 : ℕ) : ℝ) ≤ 2 ^ 53 := by exact_mod_cast this
    push_cast at this; linarith
  have big : ∀ x : ℝ, |x| ≤ 2 ^ 60 → |x| < 2 ^ 1024 := fun x hx => lt_of_le_of_lt hx (pow_lt_pow_right₀ (by norm_num) (by norm_num))
  have small : ∀ q : ℝ, |q| ≤ 2 ^ 60 → |q * U| < 2 ^ 1024 := fun q hq => big _ (by
    rw [abs_mul, abs_of_pos U0]
    calc |q| * U ≤ |q| * 1 := mul_le_mul_of_nonneg_left U1 (abs_nonneg _)
      _ ≤ _ := by rw [mul_one]; exact hq)
  have hk53 : |((4 * i + 2 : ℤ))| ≤ 2 ^ 53 := by rw [abs_of_nonneg (by positivity)]; omega
  have i1 : c.Is ((4 * i + 2) * U) := by rw [hc, hcv]; exact Is.fin _
  have r1 : rnd ((4 * i + 2) * U) = (4 * i + 2) * U := by
    have := rnd_repr (4 * i + 2) (-(j:ℤ)) hk53 (by omega)
    push_cast at this; exact this
  have i2 : ((0:F64) + c).Is ((4 * i + 2) * U) := addv Is.zero i1 (by rw [zero_add, r1])
    (small _ (by rw [abs_of_pos (by positivity)]; norm_num at h2r ⊢; linarith))
  have r2 : rnd ((4 * i + 2) * U + (4 * i + 2) * U) = (2 * (4 * i + 2)) * U := by
    have := rnd_repr (4 * i + 2) (-(j:ℤ) + 1) hk53 (by omega)
    rw [ks] at this
    push_cast at this
    rw [show (4 * (i:ℝ) + 2) * U + (4 * i + 2) * U = (4 * i + 2) * (U * 2 ^ (1:ℤ)) by rw [zpow_one]; ring, this, zpow_one]; ring
  have i3 : ((0:F64) + c + c).Is ((2 * (4 * i + 2)) * U) := addv i2 i1 r2
    (small _ (by rw [abs_of_pos (by positivity)]; norm_num at h2r ⊢; linarith))
  -- the third addition is a tie
  obtain ⟨δ, hδ, r3⟩ : ∃ δ : ℤ, (δ = 1 ∨ δ = -1) ∧
      rnd ((2 * (4 * i + 2)) * U + (4 * i + 2) * U) = (3 * (4 * i + 2) + 2 * δ) * U := by
    have e : (2 * (4 * (i:ℝ) + 2)) * U + (4 * i + 2) * U = (3 * (4 * i + 2)) * U := by ring
    have ht := rnd_tie (x := (3 * (4 * (i:ℝ) + 2)) * U) (3 * i + 1) (-(j:ℤ) + 2) (by omega)
      (by
        rw [add_assoc, ks]
        have : (2:ℝ) ^ ((2:ℤ) + 52) = 2 ^ 54 := by norm_num
        rw [this, mul_comm U]; exact mul_le_mul_of_nonneg_right h1r U0.le)
      (by
        rw [add_assoc, ks]
        have : (2:ℝ) ^ ((2:ℤ) + 53) = 2 ^ 55 := by norm_num
        rw [this]
        have : 3 * (4 * (i:ℝ) + 2) < 2 ^ 55 := by norm_num at h2r ⊢; linarith
        rw [mul_comm U]; exact mul_lt_mul_of_pos_right this U0)
      (by
        rw [ks, show (2:ℝ) ^ (2:ℤ) = 4 by norm_num]
        push_cast; field_simp; ring)
    rw [e]
    by_cases hev : Even (3 * (i:ℤ) + 1)
    · rw [if_pos hev] at ht
      refine ⟨-1, Or.inr rfl, ht.trans ?_⟩
      rw [ks, show (2:ℝ) ^ (2:ℤ) = 4 by norm_num]; push_cast; ring
    · rw [if_neg hev] at ht
      refine ⟨1, Or.inl rfl, ht.trans ?_⟩
      rw [ks, show (2:ℝ) ^ (2:ℤ) = 4 by norm_num]; push_cast; ring
  have δ1 : |(δ:ℝ)| = 1 := by rcases hδ with rfl | rfl <;> norm_num
  have δle := abs_le.1 δ1.le
  have i4 : ((0:F64) + c + c + c).Is ((3 * (4 * i + 2) + 2 * δ) * U) := addv i3 i1 r3
    (small _ (by rw [abs_of_pos (by linarith)]; norm_num at h2r ⊢; linarith))
  have i3' : (F64.ofNat 3).Is 3 := by simpa using ofNat53 (n := 3) (by norm_num)
  -- the mean is the neighbour
  have r4 : rnd ((3 * (4 * i + 2) + 2 * δ) * U / 3) = (4 * i + 2 + δ) * U := by
    have := rnd_eq (x := (3 * (4 * (i:ℝ) + 2) + 2 * δ) * U / 3) (4 * i + 2 + δ) (-(j:ℤ)) (by omega)
      (by
        rw [ks]
        have : (2:ℝ) ^ (52:ℤ) = 2 ^ 52 := by norm_num
        rw [this, mul_comm U, mul_div_right_comm]
        refine mul_le_mul_of_nonneg_right ?_ U0.le
        norm_num at h1r ⊢
        linarith)
      (by
        rw [ks]
        have : (2:ℝ) ^ (53:ℤ) = 2 ^ 53 := by norm_num
        rw [this, mul_comm U, mul_div_right_comm]
        refine mul_lt_mul_of_pos_right ?_ U0
        norm_num at h2r ⊢
        linarith)
      (by
        rw [← hU]
        push_cast
        have : (3 * (4 * (i:ℝ) + 2) + 2 * δ) * U / 3 / U - (4 * i + 2 + δ) = -(δ / 3) := by field_simp; ring
        rw [this, abs_neg, abs_div, δ1]; norm_num)
    rw [this, ← hU]; push_cast; ring
  have i5 : (((0:F64) + c + c + c) / F64.ofNat 3).Is ((4 * i + 2 + δ) * U) := divv i4 i3' (by norm_num) r4
    (small _ (by rw [abs_of_pos (by linarith)]; norm_num at h2r ⊢; linarith))
  have r5 : rnd ((4 * i + 2) * U - (4 * i + 2 + δ) * U) = (-δ) * U := by
    have := rnd_repr (-δ) (-(j:ℤ)) (by rcases hδ with rfl | rfl <;> norm_num) (by omega)
    push_cast at this
    rw [show (4 * (i:ℝ) + 2) * U - (4 * i + 2 + δ) * U = (-δ) * U by ring]; exact this
  have i6 : (c - ((0:F64) + c + c + c) / F64.ofNat 3).Is ((-δ) * U) := subv i1 i5 r5 (small _ (by rw [abs_neg, δ1]; norm_num))
  have hδ2 : (δ:ℝ) * δ = 1 := by rcases hδ with rfl | rfl <;> norm_num
  have hUU : U * U = 2 ^ (-(2 * j : ℤ)) := by rw [hU, ← zpow_add₀ (by norm_num)]; congr 1; ring
  have UU1 : U * U ≤ 1 := mul_le_one₀ U1 U0.le U1
  have UU0 : 0 < U * U := by positivity
  have small2 : ∀ q : ℝ, 0 < q → q ≤ 2 ^ 60 → |q * (U * U)| < 2 ^ 1024 := fun q q0 hq => big _ (by
    rw [abs_of_pos (by positivity)]
    calc q * (U * U) ≤ q * 1 := mul_le_mul_of_nonneg_left UU1 q0.le
      _ ≤ _ := by rw [mul_one]; exact hq)
  have rq : ∀ q : ℤ, |q| ≤ 2 ^ 53 → rnd ((q:ℝ) * (U * U)) = q * (U * U) := fun q hq => by
    rw [hUU]; exact rnd_repr q _ hq (by omega)
  have r6 : rnd ((-δ) * U * ((-δ) * U)) = 1 * (U * U) := by
    have := rq 1 (by norm_num)
    push_cast at this
    rw [show (-δ:ℝ) * U * ((-δ) * U) = 1 * (U * U) by rw [← hδ2]; ring]; exact this
  have i7 := mulv i6 i6 r6 (small2 1 (by norm_num) (by norm_num))
  set w := (c - ((0:F64) + c + c + c) / F64.ofNat 3) * (c - ((0:F64) + c + c + c) / F64.ofNat 3) with hw
  have i8 : ((0:F64) + w).Is (1 * (U * U)) := addv Is.zero i7 (by rw [zero_add]; simpa using rq 1 (by norm_num))
    (small2 1 (by norm_num) (by norm_num))
  have i9 : ((0:F64) + w + w).Is (2 * (U * U)) := addv i8 i7
    (by rw [show 1 * (U * U) + 1 * (U * U) = 2 * (U * U) by ring]; simpa using rq 2 (by norm_num)) (small2 2 (by norm_num) (by norm_num))
  have i10 : ((0:F64) + w + w + w).Is (3 * (U * U)) := addv i9 i7
    (by rw [show 2 * (U * U) + 1 * (U * U) = 3 * (U * U) by ring]; simpa using rq 3 (by norm_num)) (small2 3 (by norm_num) (by norm_num))
  have i11 : (((0:F64) + w + w + w) / F64.ofNat 3).Is (1 * (U * U)) := divv i10 i3' (by norm_num)
    (by rw [show 3 * (U * U) / 3 = 1 * (U * U) by ring]; simpa using rq 1 (by norm_num)) (small2 1 (by norm_num) (by norm_num))
  have hfit : UvNormal.fitMle [c, c, c] = UvNormal.new (((0:F64) + c + c + c) / F64.ofNat 3)
      (((0:F64) + w + w + w) / F64.ofNat 3) := rfl
  refine ⟨_, _, _, hfit.trans (UvNormal.new_ok.2 ⟨(Is.zero.lt_iff i11).2 (by positivity), rfl⟩), i5, i11, ?_, ?_⟩
  · rw [hcv]
    intro h
    have : (δ:ℝ) * U = 0 := by linear_combination h
    rcases mul_eq_zero.1 this with h | h
    · rw [h] at δ1; simp at δ1
    · exact U0.ne' h
  · rw [one_mul, ← hUj, show (4:ℝ) = 2 * 2 by norm_num, mul_pow]; field_simp

/-- C258 (violated), in binary64: (2) every sample of values below 2^-600 is refused, however different they are: the squared
residuals underflow to zero; -/
theorem C258_normal_tiny_violated {xs : List F64} {rs : List ℝ} (hx : List.Forall₂ Is xs rs) (hne : rs ≠ [])
    (hn : rs.length ≤ 2 ^ 50) (hA : ∀ r ∈ rs, |r| ≤ 1 / 2 ^ 600) : ∃ e, UvNormal.fitMle xs = .error e := by
  have hl : 0 < rs.length := List.length_pos_iff.2 hne
  obtain ⟨n, hnd⟩ : ∃ n, rs.length = n := ⟨_, rfl⟩
  have hxl : xs.length = n := by rw [hx.length_eq, hnd]
  rw [hnd] at hl hn
  have hnp : (0:ℝ) < n := by exact_mod_cast hl
  have hn' : (n:ℝ) ≤ 2 ^ 50 := by exact_mod_cast hn
  set A : ℝ := 1 / 2 ^ 600 with hAd
  have Ap : 0 < A := by positivity
  have A1 : A ≤ 1 := by rw [hAd, div_le_one (by positivity)]; exact one_le_pow₀ (by norm_num)
  have htA : (1:ℝ) / 2 ^ 1075 ≤ A / 2 ^ 60 := by
    rw [hAd, div_div, ← pow_add]
    exact one_div_le_one_div_of_le (by positivity) (pow_le_pow_right₀ (by norm_num) (by norm_num))
  have hsmall : (4 * A) * (4 * A) ≤ (1 / 2) ^ 1075 := by
    rw [hAd, show (4:ℝ) = 2 ^ 2 by norm_num, one_div_pow]
    rw [show (2:ℝ) ^ 2 * (1 / 2 ^ 600) * (2 ^ 2 * (1 / 2 ^ 600)) = 2 ^ 4 / (2 ^ 600 * 2 ^ 600) by
      rw [show (2:ℝ) ^ 4 = 2 ^ 2 * 2 ^ 2 by norm_num]; ring, ← pow_add, div_le_div_iff₀ (by positivity) (by positivity), one_mul,
      ← pow_add]
    exact pow_le_pow_right₀ (by norm_num) (by norm_num)
  have h2A : 4 * A ≤ 2 ^ 1000 := by
    have : (4:ℝ) ≤ 2 ^ 1000 := by
      rw [show (4:ℝ) = 2 ^ 2 by norm_num]; exact pow_le_pow_right₀ (by norm_num) (by norm_num)
    generalize (2:ℝ) ^ 1000 = M at *
    linarith
  have hA900 : A ≤ 2 ^ 900 := A1.trans (one_le_pow₀ (by norm_num))
  clear_value A
  obtain ⟨ps, hp1, hp2, hpI⟩ : ∃ ps : List (F64 × ℝ), ps.map Prod.fst = xs ∧ ps.map Prod.snd = rs ∧
      ∀ p ∈ ps, p.1.Is p.2 ∧ |p.2| ≤ A := by
    refine ⟨xs.zip rs, List.map_fst_zip hx.length_eq.le, List.map_snd_zip hx.length_eq.ge, ?_⟩
    rintro ⟨a, b⟩ hab
    exact ⟨(List.forall₂_iff_zip.1 hx).2 hab, hA _ (List.of_mem_zip hab).2⟩
  have hpl : ps.length = n := by rw [← hxl, ← hp1, List.length_map]
  obtain ⟨S, hS, hSe⟩ := fsum_err (fun p : F64 × ℝ => p.1) (fun p => p.2) (n := n) (ε := 0) (B := A) hn Ap.le le_rfl
    (by rw [add_zero]; exact hA900) ps 0 0 0 0 (by omega)
    (fun p hp => ⟨⟨p.2, (hpI p hp).1, by simp⟩, (hpI p hp).2⟩) Is.zero (by simp) (by simp)
  have hfold : ps.foldl (fun a p => a + p.1) (0 : F64) = xs.foldl (fun acc x => acc + x) 0 := by
    rw [← hp1, List.foldl_map]
  rw [hfold] at hS
  rw [show (ps.map fun p => p.2) = rs from hp2, zero_add, zero_add, hpl] at hSe
  have hsumA : |rs.sum| ≤ A * n := by
    have : ∀ l : List ℝ, (∀ r ∈ l, |r| ≤ A) → |l.sum| ≤ A * l.length := by
      intro l
      induction l with
      | nil => intro _; simp
      | cons a l ih =>
        intro h
        have h1 := h a (by simp)
        have h2 := ih fun r hr => h r (by simp [hr])
        have h3 := abs_add_le a l.sum
        rw [List.sum_cons, List.length_cons]; push_cast; linarith
    have := this rs hA
    rwa [hnd] at this
  have hSn : |S / n| ≤ 3 / 2 * A := by
    rw [abs_div, abs_of_pos hnp, div_le_iff₀ hnp]
    have h1 := abs_add_le (S - rs.sum) rs.sum
    rw [sub_add_cancel] at h1
    have h2 : (n:ℝ) * (0 + (n * (A + 0) / 2 ^ 52 + 2 * (1 / 2 ^ 1075))) ≤ n * (3 / 8 * A) := by
      refine mul_le_mul_of_nonneg_left ?_ hnp.le
      have : (n:ℝ) * A / 2 ^ 52 ≤ A / 4 := by
        rw [div_le_iff₀ (by norm_num)]
        have := mul_le_mul_of_nonneg_right hn' Ap.le
        norm_num at this ⊢; linarith
      generalize (1:ℝ) / 2 ^ 1075 = τ at *
      rw [add_zero]
      norm_num at htA this ⊢
      linarith
    have h3 := h1.trans (add_le_add (hSe.trans h2) hsumA)
    have h4 : 0 < n * A := by positivity
    linarith
  have hmean : (xs.foldl (fun acc x => acc + x) (0 : F64) / F64.ofNat xs.length).Is (rnd (S / n)) := by
    rw [hxl]
    exact div_is hS (ofNat53 (hn.trans (by norm_num))) hnp.ne' (nh_1000 (hSn.trans (by
      generalize (2:ℝ) ^ 1000 = M at *
      linarith)))
  have grow : ∀ {x M : ℝ}, |x| ≤ M → A ≤ M → |rnd x| ≤ M + M / 2 ^ 50 := by
    intro x M h hM
    have e := rnd_err x
    have h1 := abs_add_le (rnd x - x) x
    rw [sub_add_cancel] at h1
    have h2 : |x| / 2 ^ 53 ≤ M / 2 ^ 53 := div_le_div_of_nonneg_right h (by norm_num)
    generalize (1:ℝ) / 2 ^ 1075 = τ at *
    norm_num at h2 e htA ⊢
    linarith
  have hm := grow hSn (by linarith)
  have hfit : UvNormal.fitMle xs = UvNormal.new (xs.foldl (fun acc x => acc + x) (0 : F64) / F64.ofNat xs.length)
      ((xs.map fun x => x - (xs.foldl (fun acc x => acc + x) (0 : F64) / F64.ofNat xs.length)).foldl
        (fun acc r => acc + r * r) 0 / F64.ofNat xs.length) := rfl
  rw [hfit]
  generalize xs.foldl (fun acc x => acc + x) (0 : F64) / F64.ofNat xs.length = mF at hmean
  generalize rnd (S / n) = m at hmean hm
  have hz : ((xs.map fun x => x - mF).foldl (fun acc r => acc + r * r) (0 : F64)).Is 0 := by
    rw [List.foldl_map]
    refine zero_fold (fun x => (x - mF) * (x - mF)) xs 0 Is.zero fun x hxm => ?_
    rw [← hp1] at hxm
    obtain ⟨p, hp, rfl⟩ := List.mem_map.1 hxm
    obtain ⟨hpi, hpa⟩ := hpI p hp
    have hd : |p.2 - m| ≤ 3 * A := by
      have h1 := abs_sub p.2 m
      norm_num at hm
      linarith
    have hr := grow hd (by linarith)
    have hi : (p.1 - mF).Is (rnd (p.2 - m)) := sub_is hpi hmean (nh_1000 (hd.trans (by
      generalize (2:ℝ) ^ 1000 = M at *
      linarith)))
    have hr' : |rnd (p.2 - m)| ≤ 4 * A := by norm_num at hr; linarith
    have hq : |rnd (p.2 - m) * rnd (p.2 - m)| ≤ (1 / 2) ^ 1075 := by
      rw [abs_mul]
      exact (mul_le_mul hr' hr' (abs_nonneg _) (by positivity)).trans hsmall
    exact mulv hi hi (rnd_tiny_zero hq) (by simp)
  have hv : ((xs.map fun x => x - mF).foldl (fun acc r => acc + r * r) (0 : F64) / F64.ofNat xs.length).Is 0 := by
    rw [hxl]
    exact divv hz (ofNat53 (hn.trans (by norm_num))) hnp.ne' (by rw [zero_div]; exact B64.rnd_zero) (by simp)
  rcases h : UvNormal.new mF ((xs.map fun x => x - mF).foldl (fun acc r => acc + r * r) (0 : F64) / F64.ofNat xs.length) with e | d
  · exact ⟨e, rfl⟩
  · have := (Is.zero.lt_iff hv).1 (UvNormal.new_ok.1 h).1
    exact absurd this (lt_irrefl _)

theorem pinf_of_ext {a : F64} (e : a.ext = pinf.ext) : a = pinf := by
  cases a <;> simp_all [F64.ext]

/-- C258 (violated), in binary64: (3) two or more finite samples of 2^1023 and above overflow: the fit is accepted with infinite mean
and infinite variance. -/
theorem C258_normal_overflow_violated (r s : ℝ) (rs : List ℝ) (hr : 2 ^ 1023 ≤ r) (hs : 2 ^ 1023 ≤ s)
    (hn : rs.length + 2 ≤ 2 ^ 53) :
    ∃ d, UvNormal.fitMle ((r :: s :: rs).map fin) = .ok d ∧ d.mu = pinf ∧ d.Sigma = pinf := by
  have hr0 : 0 < r := lt_of_lt_of_le (by positivity) hr
  have hlen : ((r :: s :: rs).map fin).length = rs.length + 2 := by simp
  have hnat := ofNat53 hn
  have hnp : (0:ℝ) < (rs.length + 2 : ℕ) := by positivity
  have hn0 : F64.ofNat (rs.length + 2) = fin ((rs.length + 2 : ℕ) : ℝ) := hnat.eq_fin hnp.ne'
  have hr1 : ∃ t, ((0:F64) + fin r = pinf ∨ ((0:F64) + fin r).Is t ∧ 2 ^ 1023 ≤ t) := by
    have e := add_ext Is.zero (Is.fin r)
    rw [zero_add] at e
    have hlow : (2:ℝ) ^ 1023 ≤ rnd r := by
      have := rnd_mono hr
      have e2 : rnd ((2:ℝ) ^ 1023) = 2 ^ 1023 := by
        have := rnd_repr 1 1023 (by norm_num) (by norm_num)
        rw [Int.cast_one, one_mul] at this
        exact_mod_cast this
      rwa [e2] at this
    by_cases hh : (2:ℝ) ^ 1024 ≤ rnd r
    · refine ⟨0, Or.inl ?_⟩
      have : F64.round r = pinf := by
        unfold F64.round
        rw [if_pos (show FP.huge (FP.rnd r) from hh.trans (le_abs_self _)), if_pos hr0]
      rw [this] at e
      exact pinf_of_ext e
    · refine ⟨rnd r, Or.inr ⟨?_, hlow⟩⟩
      have := add_is Is.zero (Is.fin r) (show ¬ (2:ℝ) ^ 1024 ≤ |rnd (0 + r)| by
        rw [zero_add, abs_of_nonneg (le_trans (by positivity) hlow)]; exact hh)
      rwa [zero_add] at this
  have h2 : (0:F64) + fin r + fin s = pinf := by
    obtain ⟨t, h | ⟨ht, hl⟩⟩ := hr1
    · rw [h]; exact pinf_add (Is.fin s)
    · have e := add_ext ht (Is.fin s)
      rw [round_pinf (show (2:ℝ) ^ 1024 ≤ t + s by
        have : (2:ℝ) ^ 1024 = 2 ^ 1023 + 2 ^ 1023 := by rw [pow_succ]; ring
        rw [this]; exact add_le_add hl hs)] at e
      exact pinf_of_ext e
  have hsum : ((r :: s :: rs).map fin).foldl (fun acc x => acc + x) (0:F64) = pinf := by
    rw [List.map_cons, List.map_cons, List.foldl_cons, List.foldl_cons, h2]
    refine inf_fold (fun x : F64 => x) _ fun x hx => ?_
    obtain ⟨q, _, rfl⟩ := List.mem_map.1 hx
    exact pinf_add (Is.fin q)
  have hmean : ((r :: s :: rs).map fin).foldl (fun acc x => acc + x) (0:F64) / F64.ofNat ((r :: s :: rs).map fin).length = pinf := by
    rw [hsum, hlen, hn0]; exact pinf_div_const hnp
  have hres : ∀ q : ℝ, (fin q - pinf) * (fin q - pinf) = pinf := by
    intro q
    have : fin q - pinf = ninf := rfl
    rw [this]
    show F64.mul ninf ninf = pinf
    simp [F64.mul, sinf]
  have hvs : (((r :: s :: rs).map fin).map fun x => x - pinf).foldl (fun acc r => acc + r * r) (0:F64) = pinf := by
    rw [List.foldl_map, List.map_cons, List.foldl_cons, hres, show (0:F64) + pinf = pinf from rfl]
    refine inf_fold (fun x : F64 => (x - pinf) * (x - pinf)) _ fun x hx => ?_
    have : ∃ q, x = fin q := by
      obtain ⟨q, _, h⟩ := List.mem_map.1 (show x ∈ (s :: rs).map fin from hx); exact ⟨q, h.symm⟩
    obtain ⟨q, rfl⟩ := this
    rw [hres]; rfl
  have hfit : UvNormal.fitMle ((r :: s :: rs).map fin) = UvNormal.new pinf pinf := by
    unfold UvNormal.fitMle
    dsimp only
    rw [hmean, hvs, hlen, hn0, pinf_div_const hnp]
  exact ⟨_, hfit.trans (UvNormal.new_ok.2 ⟨lt_pinf Is.zero, rfl⟩), rfl, rfl⟩

/-! ### the hypotheses are met -/
example : ∃ d y, Bernoulli.fitMle [true, false, true] = .ok d ∧ d.p.val.Is y ∧ |y - 2 / 3| ≤ 2 / 3 / 2 ^ 52 := by
  obtain ⟨d, y, h, hy, _, _, he, _⟩ := C258_bernoulli [true, false, true] (by simp) (by simp)
  refine ⟨d, y, h, hy, ?_⟩
  norm_num at he ⊢
  exact he
example : ∃ d y, Poisson.fitMle [1, 4, 0] = .ok d ∧ d.lambda.Is y ∧ |y - 5 / 3| ≤ 5 / 3 / 2 ^ 52 := by
  obtain ⟨d, y, h, hy, he⟩ := (C258_poisson [1, 4, 0] (by simp) (by simp)).1 (by simp)
  refine ⟨d, y, h, hy, ?_⟩
  norm_num at he ⊢
  exact he
example : ∃ d m v, UvNormal.fitMle [fin 0, fin 1] = .ok d ∧ d.mu.Is m ∧ d.Sigma.Is v ∧
    |m - 1 / 2| ≤ 4 / 2 ^ 52 ∧ |v - 1 / 4| ≤ 60 / 2 ^ 52 := by
  have e1 : empMean [0, 1] = 1 / 2 := by norm_num [empMean]
  have e2 : empVar [0, 1] = 1 / 4 := by norm_num [empVar, e1]
  obtain ⟨d, m, v, h, hm, hv, h1, h2⟩ := C258_normal_partial (xs := [fin 0, fin 1]) (rs := [0, 1])
    (.cons (Is.fin 0) (.cons (Is.fin 1) .nil)) (by simp) (by simp) (A := 1)
    ((div_le_one (by positivity)).2 (one_le_pow₀ (by norm_num))) (one_le_pow₀ (by norm_num))
    (by intro r hr; simp at hr; rcases hr with rfl | rfl <;> norm_num) (by rw [e2]; norm_num)
  rw [e1] at h1
  rw [e2] at h2
  refine ⟨d, m, v, h, hm, hv, ?_, ?_⟩
  · norm_num at h1 ⊢; exact h1
  · norm_num at h2 ⊢; exact h2
/-- three times the double nearest to 0.1 -/
example : ∃ d m v, UvNormal.fitMle [fin (7205759403792794 / 2 ^ 56), fin (7205759403792794 / 2 ^ 56), fin (7205759403792794 / 2 ^ 56)] = .ok d ∧
    d.mu.Is m ∧ d.Sigma.Is v ∧ m ≠ 7205759403792794 / 2 ^ 56 ∧ v = 1 / 4 ^ 56 := by
  obtain ⟨d, m, v, h, hm, hv, h1, h2⟩ := C258_normal_constant_violated 1801439850948198 56 (by norm_num) (by norm_num) (by norm_num)
    (c := fin (7205759403792794 / 2 ^ 56)) (by norm_num)
  exact ⟨d, m, v, h, hm, hv, by norm_num at h1 ⊢; exact h1, h2⟩
example : ∃ e, UvNormal.fitMle [fin 0, fin (1 / 2 ^ 700)] = .error e :=
  C258_normal_tiny_violated (.cons (Is.fin 0) (.cons (Is.fin (1 / 2 ^ 700)) .nil)) (by simp) (by simp) (by
    intro r hr
    simp only [List.mem_cons, List.not_mem_nil, or_false] at hr
    rcases hr with rfl | rfl
    · rw [abs_zero]; positivity
    · rw [abs_of_pos (by positivity)]
      exact one_div_le_one_div_of_le (by positivity) (pow_le_pow_right₀ (by norm_num) (by norm_num)))
example : ∃ d, UvNormal.fitMle [fin (2 ^ 1023), fin (2 ^ 1023)] = .ok d ∧ d.mu = pinf ∧ d.Sigma = pinf :=
  C258_normal_overflow_violated _ _ [] le_rfl le_rfl (by norm_num)
end
end Rstat
