import Verif.Props.FloatPmf4
import Verif.Props.FloatConv
import Verif.Lemmas.FloatRel6
import Verif.Props.ProbFns
import Verif.Props.Dist.Bernoulli

/-! Property C265: log-likelihoods in rounded arithmetic. -/
set_option linter.unusedSectionVars false
namespace Rstat
open F64 Spec

theorem mapM_map {α β ε : Type} (g : α → Except ε β) (f : α → β) : ∀ (xs : List α), (∀ x ∈ xs, g x = .ok (f x)) → xs.mapM g = .ok (xs.map f)
  | [], _ => rfl
  | x :: xs, h => by
    rw [List.mapM_cons, h x (by simp), mapM_map g f xs fun y hy => h y (by simp [hy])]; rfl

section
variable [FP] [FP.Lawful] [FP.Libm]

theorem np_cases {a : F64} (ha : a ≤ 0) : a = ninf ∨ ∃ r, a.Is r ∧ r ≤ 0 := by
  rcases (le_cases.1 ha).2.2 with h | h | ⟨r, s, hr, hs, h⟩
  · exact Or.inl h
  · cases h
  · rw [hs.eq Is.zero] at h; exact Or.inr ⟨r, hr, h⟩

theorem np_add {a b : F64} (ha : a ≤ 0) (hb : b ≤ 0) : a + b ≤ 0 := by
  have hn : (ninf : F64) ≤ 0 := le_cases.2 ⟨by simp, by show fin 0 ≠ nan; simp, Or.inl rfl⟩
  rcases np_cases ha with rfl | ⟨r, hr, r0⟩
  · rcases np_cases hb with rfl | ⟨s, hs, _⟩
    · exact hn
    · rw [ninf_add hs]; exact hn
  · rcases np_cases hb with rfl | ⟨s, hs, s0⟩
    · rw [fin_add_ninf hr]; exact hn
    · refine le_congr (add_ext hr hs).symm round_zero_is.ext_eq (round_mono (by linarith))

/-- the partial sums of non-positive terms only go down -/
theorem np_foldl : ∀ (l : List F64) (acc : F64), acc ≤ 0 → (∀ x ∈ l, x ≤ 0) → l.foldl (· + ·) acc ≤ 0
  | [], acc, h, _ => h
  | x :: l, acc, h, hx => np_foldl l (acc + x) (np_add h (hx x (by simp))) fun y hy => hx y (by simp [hy])

variable {a : F64} {p : ℝ} {d : Bernoulli}

theorem bern_pmf_valid (h : Bernoulli.new a = .ok d) (b : Bool) : (d.pmf b).isValid := by
  obtain ⟨h0, rfl⟩ := Bernoulli.new_ok.1 h
  cases b
  · exact C03_not_valid ⟨a⟩ ⟨h0.2, h0.1⟩
  · exact ⟨h0.2, h0.1⟩

/-- C265 Bernoulli: whatever the rounding, the log-likelihood of any data is never NaN and never positive, and the likelihood is a
probability. -/
theorem C265_bernoulli_range (h : Bernoulli.new a = .ok d) (xs : List Bool) :
    d.logLikelihood xs ≠ nan ∧ d.logLikelihood xs ≤ 0 ∧ InUnit (d.logLikelihood xs).exp := by
  have h1 : d.logLikelihood xs ≤ 0 := by
    unfold Bernoulli.logLikelihood F64.sum
    refine np_foldl _ _ ((Is.zero.le_iff Is.zero).2 le_rfl) fun x hx => ?_
    obtain ⟨b, -, rfl⟩ := List.mem_map.1 hx
    exact (C264_ln (bern_pmf_valid h b) (bern_pmf_valid h b) ((le_cases.1 (bern_pmf_valid h b).1).1 |> le_rfl')).2.2
  refine ⟨fun e => by rw [e] at h1; simp at h1, h1, ?_⟩
  refine (unit_iff _).1 ⟨?_, exp_le_one h1⟩
  have hn : (ninf : F64) ≤ d.logLikelihood xs := le_cases.2 ⟨by simp, fun e => by rw [e] at h1; simp at h1, Or.inl rfl⟩
  have := exp_mono hn
  exact this

example : ∃ d : Bernoulli, Bernoulli.new (fin (1/4)) = .ok d :=
  ⟨_, Bernoulli.new_ok.2 ⟨⟨(Is.zero.le_iff (Is.fin _)).2 (by norm_num), ((Is.fin _).le_iff Is.one).2 (by norm_num)⟩, rfl⟩⟩
end

section
open B64
attribute [local instance] binary64 binary64_lawful B64.libm B64.specialFns B64.accurate

variable {a : F64}

theorem bern_log_within {p B : ℝ} {d : Bernoulli} (h : Bernoulli.new a = .ok d) (hf : IsF64 a) (ha : a.Is p) (p0 : 0 < p) (p1 : p < 1) (hB : B ≤ 2 ^ 20)
    (b1 : |Real.log p| ≤ B) (b2 : |Real.log (1 - p)| ≤ B) (b : Bool) :
    Within (d.logPmf b) (Real.log (bernPMF p b)) ((B + 3) / 2 ^ 52) ∧ |Real.log (bernPMF p b)| ≤ B := by
  have hB0 : 0 ≤ B := (abs_nonneg _).trans b1
  obtain ⟨-, rfl⟩ := Bernoulli.new_ok.1 h
  have t : (1:ℝ) / 2 ^ 120 ≤ 1 / 2 ^ 60 := one_div_le_one_div_of_le (by positivity) (pow_le_pow_right₀ (by norm_num) (by norm_num))
  cases b
  · refine ⟨?_, b2⟩
    obtain ⟨h1, h2, -⟩ := inUnit_sub ha p0.le p1.le
    have e := FP.Accurate.sub_acc 1 p rnd_one (hf p ha).1
    rw [abs_of_pos (show (0:ℝ) < 1 - p by linarith)] at e
    obtain ⟨l1, l2⟩ := log_pert_eta (η := 1 / 2 ^ 53) (show 0 < 1 - p by linarith) (by positivity) (by norm_num) (e.trans (le_of_eq (by ring)))
    have hL : |Real.log (FP.rnd (1 - p))| ≤ B + 1 / 2 ^ 52 := by
      have := abs_sub_abs_le_abs_sub (Real.log (FP.rnd (1 - p))) (Real.log (1 - p))
      norm_num at l2 ⊢; linarith
    have := Within.ln (ρ := (B + 2) / 2 ^ 52) h1 l1 hL (by norm_num at hB ⊢; linarith) (by
      generalize (1:ℝ) / 2 ^ 120 = η at *
      norm_num at t ⊢; linarith)
    exact Within.shift this (by
      show |Real.log (FP.rnd (1 - p)) - Real.log (1 - p)| + _ ≤ _
      refine (add_le_add l2 le_rfl).trans ?_
      norm_num; linarith)
  · exact ⟨Within.ln ha p0 b1 (by norm_num at hB ⊢; linarith) (by
      generalize (1:ℝ) / 2 ^ 120 = η at *
      norm_num at t ⊢; linarith), b1⟩

/-- C265 Bernoulli: the log-likelihood of `n` observations is within `n (n + 2) (B + 1) 2^-50` of the true one, where `B` bounds the logarithms of
the two probabilities. -/
theorem C265_bernoulli {p B : ℝ} {d : Bernoulli} (h : Bernoulli.new a = .ok d) (hf : IsF64 a) (ha : a.Is p) (p0 : 0 < p) (p1 : p < 1) (hB : B ≤ 2 ^ 20)
    (b1 : |Real.log p| ≤ B) (b2 : |Real.log (1 - p)| ≤ B) (xs : List Bool) (hn : xs.length ≤ 2 ^ 50) :
    ∃ y, (d.logLikelihood xs).Is y ∧ |y - logLik (bernPMF p) xs| ≤ xs.length * ((xs.length + 2) * (B + 1) / 2 ^ 50) := by
  have hB0 : 0 ≤ B := (abs_nonneg _).trans b1
  obtain ⟨y, y1, y2⟩ := fsum_err d.logPmf (fun b => Real.log (bernPMF p b)) (n := xs.length) (ε := (B + 3) / 2 ^ 52) (B := B) hn hB0 (by positivity)
    (by
      have h900 : (2:ℝ) ^ 30 ≤ 2 ^ 900 := pow_le_pow_right₀ (by norm_num) (by norm_num)
      refine le_trans ?_ h900
      norm_num at hB ⊢; linarith) xs 0 0 0 0 (by simp) (fun b _ => bern_log_within h hf ha p0 p1 hB b1 b2 b) Is.zero (by simp) (by simp)
  refine ⟨y, ?_, ?_⟩
  · unfold Bernoulli.logLikelihood F64.sum; rw [List.foldl_map]; exact y1
  · rw [zero_add, zero_add] at y2
    refine y2.trans (mul_le_mul_of_nonneg_left ?_ (Nat.cast_nonneg _))
    have hη1 : (1:ℝ) / 2 ^ 1075 ≤ 1 / 2 ^ 60 := one_div_le_one_div_of_le (by positivity) (pow_le_pow_right₀ (by norm_num) (by norm_num))
    generalize (1:ℝ) / 2 ^ 1075 = η at *
    have hl : (0:ℝ) ≤ xs.length := Nat.cast_nonneg _
    generalize (xs.length : ℝ) = m at *
    have hm : m * B ≥ 0 := mul_nonneg hl hB0
    rw [show m * (B + (B + 3) / 2 ^ 52) / 2 ^ 52 = (m * B + (m * B + 3 * m) / 2 ^ 52) / 2 ^ 52 by ring,
      show (m + 2) * (B + 1) / 2 ^ 50 = (m * B + m + 2 * B + 2) / 2 ^ 50 by ring]
    generalize m * B = mb at *
    norm_num at hη1 ⊢
    linarith

example : ∃ d : Bernoulli, Bernoulli.new (fin (1/4)) = .ok d ∧ IsF64 (fin (1/4)) :=
  ⟨_, Bernoulli.new_ok.2 ⟨⟨(Is.zero.le_iff (Is.fin _)).2 (by norm_num), ((Is.fin _).le_iff Is.one).2 (by norm_num)⟩, rfl⟩, fun r hr => by
    rw [hr.eq (Is.fin _)]
    have h1 := FP.Lawful.rnd_dyadic 1 2 (by norm_num) (by norm_num)
    norm_num at h1
    exact ⟨h1, FP.Lawful.not_huge _ (by
      rw [abs_of_pos (by norm_num)]
      exact le_trans (by norm_num : (1/4:ℝ) ≤ 1) (one_le_pow₀ (by norm_num)))⟩⟩

/-! ### Poisson -/
variable {l : ℝ} {d : Poisson}

/-- C265 Poisson: for rates in [2^-20, 2^20], and up to 2^20 observations below 2^20, the log-likelihood is within
`n (3e-7 + n 2^-25)` of the true one. Missing: larger rates and observations, see `C265_poisson_violated`. -/
theorem C265_poisson_partial (h : Poisson.new a = .ok d) (ha : a.Is l) (h1 : 1 / 2 ^ 20 ≤ l) (h2 : l ≤ 2 ^ 20) (pr : Profile) (xs : List ℕ)
    (hn : xs.length ≤ 2 ^ 20) (hx : ∀ x ∈ xs, x ≤ 2 ^ 20) :
    ∃ b y, d.logLikelihood pr xs = .ok b ∧ b.Is y ∧ |y - logLik (poisPMF l) xs| ≤ xs.length * (3 / 10 ^ 7 + xs.length / 2 ^ 25) := by
  have hl : 0 < l := lt_of_lt_of_le (by positivity) h1
  obtain ⟨-, rfl⟩ := Poisson.new_ok.1 h
  set g : ℕ → F64 := fun k => match logFactorialStirling pr k with | .ok b => b | .error _ => nan with hg
  have hgk : ∀ k ≤ 2 ^ 20, logFactorialStirling pr k = .ok (g k) ∧ Within (g k) (Real.log k.factorial) (17 / 10 ^ 8) := fun k hk => by
    obtain ⟨b, b1, b2⟩ := logFact_within pr hk
    have : g k = b := by simp only [hg]; rw [b1]
    rw [this]; exact ⟨b1, b2⟩
  have hterm : ∀ k ∈ xs, Within (a.ln * F64.ofNat k - g k) (Real.log l * k - Real.log k.factorial) (2 / 10 ^ 7) ∧
      |Real.log l * k - Real.log k.factorial| ≤ 2 ^ 20 * 28 := fun k hk => by
    have hk20 := hx k hk
    have hk' : (k:ℝ) ≤ 2 ^ 20 := by exact_mod_cast hk20
    have hk0 : (0:ℝ) ≤ k := Nat.cast_nonneg k
    have ek := ofNat_exact (n := k) (by omega)
    have hL : |Real.log l| ≤ 14 := (log_pow_bound h1 h2).trans (by norm_num)
    have wL := Within.ln ha hl hL (by norm_num) le_rfl
    have w1 : Within (a.ln * F64.ofNat k) (Real.log l * k) (4 / 10 ^ 9) :=
      Within.mul 14 (2 ^ 20) wL (Within.exact ek) hL (by rw [abs_of_nonneg hk0]; exact hk') (by norm_num) (by norm_num)
    have m1 : |Real.log l * k| ≤ 2 ^ 20 * 14 := by
      rw [abs_mul, mul_comm]
      exact mul_le_mul (by rw [abs_of_nonneg hk0]; exact hk') hL (abs_nonneg _) (by norm_num)
    have m3 : |Real.log k.factorial| ≤ 2 ^ 20 * 14 := by
      have f1 : (1:ℝ) ≤ k.factorial := by exact_mod_cast k.factorial_pos
      have f2 : (k.factorial : ℝ) ≤ (2 ^ 20) ^ k := by
        have : k.factorial ≤ (2 ^ 20) ^ k := (Nat.factorial_le_pow k).trans (Nat.pow_le_pow_left hk20 k)
        exact_mod_cast this
      rw [← pow_mul] at f2
      refine (log_pow_bound (le_trans ?_ f1) f2).trans ?_
      · rw [div_le_one (by positivity)]; exact one_le_pow₀ (by norm_num)
      · push_cast; linarith
    have m2 : |Real.log l * k - Real.log k.factorial| ≤ 2 ^ 20 * 28 := (abs_sub _ _).trans (by linarith)
    exact ⟨Within.sub (2 ^ 20 * 28) w1 (hgk k hk20).2 m2 (by norm_num) (by norm_num), m2⟩
  obtain ⟨y, y1, y2⟩ := fsum_err (fun k => a.ln * F64.ofNat k - g k) (fun k : ℕ => Real.log l * k - Real.log k.factorial)
    (n := xs.length) (ε := 2 / 10 ^ 7) (B := 2 ^ 20 * 28) (by omega) (by norm_num) (by norm_num)
    (le_trans (by norm_num : (2:ℝ) ^ 20 * 28 + 2 / 10 ^ 7 ≤ 2 ^ 30) (pow_le_pow_right₀ (by norm_num) (by norm_num)))
    xs 0 0 0 0 (by simp) hterm Is.zero (by simp) (by simp)
  rw [zero_add, zero_add] at y2
  have en := ofNat_exact (n := xs.length) (by omega)
  have hm0 : (0:ℝ) ≤ xs.length := Nat.cast_nonneg _
  have hm1 : (xs.length : ℝ) ≤ 2 ^ 20 := by exact_mod_cast hn
  have hS : |(xs.map fun k : ℕ => Real.log l * k - Real.log k.factorial).sum| ≤ xs.length * (2 ^ 20 * 28) := by
    clear y1 y2 en hm0 hm1 hn
    induction xs with
    | nil => simp
    | cons x xs ih =>
      have i1 := ih (fun k hk => hx k (by simp [hk])) (fun k hk => hterm k (by simp [hk]))
      have i2 := (hterm x (by simp)).2
      rw [List.map_cons, List.sum_cons, List.length_cons]
      refine (abs_add_le _ _).trans ?_
      push_cast; linarith
  rw [@pois_logLik exactFP exactFP_exact _ hl]
  have hts : xs.mapM (fun k => (do
      let lf ← logFactorialStirling pr k
      .ok (a.ln * F64.ofNat k - lf) : Except Panic F64)) = .ok (xs.map fun k => a.ln * F64.ofNat k - g k) :=
    mapM_map _ _ xs fun k hk => by rw [(hgk k (hx k hk)).1]; rfl
  have hsum : (F64.sum (xs.map fun k => a.ln * F64.ofNat k - g k)).Is y := by unfold F64.sum; rw [List.foldl_map]; exact y1
  have hret : ∀ z, (-F64.ofNat xs.length * a + F64.sum (xs.map fun k => a.ln * F64.ofNat k - g k)).Is z →
      ∃ b, Poisson.logLikelihood ⟨a⟩ pr xs = .ok b ∧ b.Is z := fun z hz => ⟨_, by
    unfold Poisson.logLikelihood
    simp only [hts]
    rfl, hz⟩
  set s := (xs.map fun k : ℕ => Real.log l * k - Real.log k.factorial).sum with hs
  rcases Nat.eq_zero_or_pos xs.length with h0 | hpos
  · have hxs := List.length_eq_zero_iff.1 h0
    have hs0 : s = 0 := by rw [hs, hxs]; simp
    rw [h0, Nat.cast_zero] at en
    rw [h0] at hret y2
    have yz : y = 0 := by
      rw [hs0] at y2; simp only [Nat.cast_zero, zero_mul] at y2
      have := abs_nonpos_iff.1 y2; linarith
    have i1 : (-F64.ofNat 0 * a).Is 0 := by
      have := mul_is en.neg ha (Within.huge_ok (M := 1) (by norm_num) (by norm_num))
      rwa [neg_zero, zero_mul, F64.rnd_zero] at this
    rw [yz] at hsum
    have i2 : (-F64.ofNat 0 * a + F64.sum (xs.map fun k => a.ln * F64.ofNat k - g k)).Is 0 := by
      have := add_is i1 hsum (Within.huge_ok (M := 1) (by norm_num) (by norm_num))
      rwa [add_zero, F64.rnd_zero] at this
    obtain ⟨b, b1, b2⟩ := hret 0 i2
    refine ⟨b, 0, b1, b2, ?_⟩
    rw [h0, hs0]; simp
  · have hm2 : (1:ℝ) ≤ xs.length := by exact_mod_cast hpos
    have t : (1:ℝ) / 2 ^ 120 ≤ 1 / 2 ^ 60 := one_div_le_one_div_of_le (by positivity) (pow_le_pow_right₀ (by norm_num) (by norm_num))
    have hη1 : (1:ℝ) / 2 ^ 1075 ≤ 1 / 2 ^ 60 := one_div_le_one_div_of_le (by positivity) (pow_le_pow_right₀ (by norm_num) (by norm_num))
    generalize (1:ℝ) / 2 ^ 1075 = η at *
    have w1 : Within (-F64.ofNat xs.length * a) (-(xs.length : ℝ) * l) (xs.length / 2 ^ 32) :=
      Within.mul (xs.length) (2 ^ 20) (Within.exact en.neg) (Within.exact ha) (by rw [abs_neg, abs_of_nonneg hm0]) (by rw [abs_of_pos hl]; exact h2)
        (by norm_num at t ⊢; linarith) (by norm_num; linarith [hm1.trans (by norm_num : (2:ℝ) ^ 20 ≤ 1048576)])
    have m1 : |-(xs.length : ℝ) * l| ≤ xs.length * 2 ^ 20 := by
      rw [abs_mul, abs_neg, abs_of_nonneg hm0, abs_of_pos hl]; exact mul_le_mul_of_nonneg_left h2 hm0
    have hE : xs.length * (2 / 10 ^ 7 + (xs.length * (2 ^ 20 * 28 + 2 / 10 ^ 7) / 2 ^ 52 + 2 * η)) ≤ xs.length * (21 / 10 ^ 8 + xs.length / 2 ^ 27) := by
      refine mul_le_mul_of_nonneg_left ?_ hm0
      norm_num at hη1 ⊢; linarith
    have w2 : Within (F64.sum (xs.map fun k => a.ln * F64.ofNat k - g k)) s (xs.length * (21 / 10 ^ 8 + xs.length / 2 ^ 27)) :=
      ⟨y, hsum, y2.trans hE⟩
    have hmm : (xs.length : ℝ) * (xs.length / 2 ^ 27) ≤ xs.length * (2 ^ 20 / 2 ^ 27) :=
      mul_le_mul_of_nonneg_left (div_le_div_of_nonneg_right hm1 (by positivity)) hm0
    have hmm' : (0:ℝ) ≤ xs.length * (xs.length / 2 ^ 27) := by positivity
    have w3 := Within.add (ρ := xs.length * (3 / 10 ^ 7 + xs.length / 2 ^ 25)) (xs.length * 2 ^ 25) w1 w2 ((abs_add_le _ _).trans (by
      norm_num at m1 hS ⊢; linarith)) (by
        rw [show (xs.length : ℝ) * (21 / 10 ^ 8 + xs.length / 2 ^ 27) = 21 / 10 ^ 8 * xs.length + xs.length * (xs.length / 2 ^ 27) by ring,
          show (xs.length : ℝ) * (3 / 10 ^ 7 + xs.length / 2 ^ 25) = 3 / 10 ^ 7 * xs.length + 4 * (xs.length * (xs.length / 2 ^ 27)) by ring]
        generalize (xs.length : ℝ) * (xs.length / 2 ^ 27) = q at *
        norm_num at t hmm ⊢; linarith) (by
        rw [show (xs.length : ℝ) * (21 / 10 ^ 8 + xs.length / 2 ^ 27) = 21 / 10 ^ 8 * xs.length + xs.length * (xs.length / 2 ^ 27) by ring]
        generalize (xs.length : ℝ) * (xs.length / 2 ^ 27) = q at *
        norm_num at hmm ⊢; linarith [hm1.trans (by norm_num : (2:ℝ) ^ 20 ≤ 1048576)])
    obtain ⟨z, z1, z2⟩ := w3
    obtain ⟨b, b1, b2⟩ := hret z z1
    exact ⟨b, z, b1, b2, z2⟩

example : ∃ d, Poisson.new (fin 3) = .ok d ∧ (fin 3).Is 3 := ⟨_, Poisson.new_ok.2 ⟨(Is.zero.lt_iff (Is.fin _)).2 (by norm_num), rfl⟩, Is.fin _⟩

/-- `ln k!` near 2^60 -/
theorem pois_lf {pr : Profile} {k : ℕ} {Y L : ℝ} {a b2 : ℤ} (hk : k < 2 ^ 63) (hk' : 255 ≤ k) (e2 : F64.ofNat (k + 1) = fin Y)
    (l2 : (fin Y).ln = fin L) (hY : rnd (Y - 1 / 2) = Y) (hY1 : 2 ^ 60 ≤ Y) (hY2 : Y ≤ 2 ^ 61)
    (hA : rnd (Y * L) = a * 2 ^ 13) (ha : (2:ℤ) ^ 52 + 1 ≤ a ∧ a ≤ 2 ^ 53 - 2)
    (hB2 : rnd (a * 2 ^ 13 - Y) = b2 * 2 ^ 13) (hb2 : (2:ℤ) ^ 52 + 1 ≤ b2 ∧ b2 ≤ 2 ^ 53 - 2) :
    logFactorialStirling pr k = .ok (fin (b2 * 2 ^ 13)) ∧ fin L * fin Y = fin (a * 2 ^ 13) := by
  have sz : ∀ {m : ℤ}, (2:ℤ) ^ 52 + 1 ≤ m ∧ m ≤ 2 ^ 53 - 2 → |(m:ℝ) * 2 ^ 13| < 2 ^ 1024 ∧ (m:ℝ) * 2 ^ 13 ≠ 0 := by
    rintro m ⟨h1, h2⟩
    have m1 : (2:ℝ) ^ 52 + 1 ≤ m := by exact_mod_cast h1
    have m2 : (m:ℝ) ≤ 2 ^ 53 - 2 := by exact_mod_cast h2
    have hp : (0:ℝ) < m * 2 ^ 13 := by
      apply mul_pos _ (by norm_num); linarith
    exact ⟨near66 (by rw [abs_of_pos hp]; linarith), hp.ne'⟩
  have v1 : fin Y * fin L = fin (a * 2 ^ 13) := mul_val hA (sz ha).1 (sz ha).2
  have v1' : fin L * fin Y = fin (a * 2 ^ 13) := mul_val (by rw [_root_.mul_comm]; exact hA) (sz ha).1 (sz ha).2
  have v3 : fin (a * 2 ^ 13) - fin Y = fin (b2 * 2 ^ 13) := sub_val (Is.fin Y) hB2 (sz hb2).1 (sz hb2).2
  have hY0 : 0 < Y := lt_of_lt_of_le (by norm_num) hY1
  have v4 : fin Y - fin (1 / 2) = fin Y := sub_val (Is.fin _) hY (near66 (by rw [abs_of_pos hY0]; linarith)) hY0.ne'
  obtain ⟨c, c1, c2, c3⟩ := half_ln_two_pi
  obtain ⟨e, f1, f2, f3⟩ : ∃ e, (1 / (12 * fin Y) : F64).Is e ∧ 0 ≤ e ∧ e ≤ 4 := by
    have kk : Keep ((2:ℝ) ^ 60) := ⟨rnd_two_pow (e := 60) (by norm_num), FP.Lawful.not_huge _ (by
      rw [abs_of_pos (by positivity)]; exact pow_le_pow_right₀ (by norm_num) (by norm_num))⟩
    have kk' : Keep ((2:ℝ) ^ 66) := ⟨rnd_two_pow (e := 66) (by norm_num), FP.Lawful.not_huge _ (by
      rw [abs_of_pos (by positivity)]; exact pow_le_pow_right₀ (by norm_num) (by norm_num))⟩
    have h1 : Btw (2 ^ 60) (2 ^ 66) (12 * fin Y) := (Btw.num (Is.num 12)).mul (Btw.num (Is.fin Y)) kk kk' fun r s a b c d => by
      have : r = 12 := le_antisymm b a
      have : s = Y := le_antisymm d c
      subst r s; constructor <;> linarith
    exact (Btw.num Is.one).div h1 (by norm_num) (keep 0 0) (keep 4 0) fun r s a b c d => by
      have : r = 1 := le_antisymm b a
      subst r
      have hs : (1:ℝ) ≤ s := le_trans (by norm_num) c
      exact ⟨by positivity, by rw [div_le_iff₀ (by linarith)]; linarith⟩
  refine ⟨?_, v1'⟩
  unfold logFactorialStirling
  rw [if_pos (by omega)]
  have hu : uadd pr k 1 = .ok (k + 1) := uadd_ok (by unfold U64; omega)
  rw [hu]
  simp only [exc_ok_bind, e2, l2]
  rw [v4, v1, v3, absorb c1 hb2.1 hb2.2 c2 c3, absorb f1 hb2.1 hb2.2 f2 f3]

/-- C265 is violated by the Poisson law: with the rate 2^60 + 3840 the log-likelihood of the single observation `k`, for each of the 200 outcomes
2^60 + 4252 ≤ k < 2^60 + 4452, is 4352: the likelihood is plus infinity. -/
theorem C265_poisson_violated (pr : Profile) {k : ℕ} (hk1 : 2 ^ 60 + 4252 ≤ k) (hk2 : k < 2 ^ 60 + 4452) :
    ∃ d, Poisson.new (fin (2 ^ 60 + 3840)) = .ok d ∧ d.logLikelihood pr [k] = .ok (fin 4352) ∧ (fin 4352 : F64).exp = pinf ∧
      logLik (poisPMF (2 ^ 60 + 3840)) [k] ≤ 0 := by
  have e1 : F64.ofNat k = fin (2 ^ 60 + 4352) := by
    rw [ofNat_near (j := 17) (by norm_num) (by omega) (by omega) (by omega)]; norm_num
  have e2 : F64.ofNat (k + 1) = fin (2 ^ 60 + 4352) := by
    rw [ofNat_near (j := 17) (by norm_num) (by omega) (by omega) (by omega)]; norm_num
  have l1 := ln_near (c := 3840) (by norm_num) 5853107595155025 (by norm_num) (by norm_num) (by norm_num) (by norm_num)
  have l2 := ln_near (c := 4352) (by norm_num) 5853107595155025 (by norm_num) (by norm_num) (by norm_num) (by norm_num)
  obtain ⟨q1, q2⟩ := pois_lf (pr := pr) (k := k) (a := 5853107595155047) (b2 := 5712370106799718) (by omega) (by omega) e2 l2
    (by
      have := rnd_eq (x := 2 ^ 60 + 4352 - 1 / 2) (2 ^ 52 + 17) 8 (by norm_num) (by norm_num) (by norm_num) (by norm_num [abs_lt])
      rw [this]; norm_num) (by norm_num) (by norm_num)
    (by
      rw [rnd_eq (5853107595155047) 13 (by norm_num) (by norm_num) (by norm_num) (by norm_num [abs_lt])]; norm_num) (by norm_num)
    (by
      rw [rnd_eq (5712370106799718) 13 (by norm_num) (by norm_num) (by norm_num) (by norm_num [abs_lt])]; norm_num) (by norm_num)
  have r1 : ((0 : F64) + (fin ((5853107595155047:ℤ) * 2 ^ 13) - fin ((5712370106799718:ℤ) * 2 ^ 13))) = fin (2 ^ 60 + 8192) := by
    have hr : rnd ((2:ℝ) ^ 60 + 8192) = 2 ^ 60 + 8192 := by
      rw [rnd_eq (2 ^ 52 + 32) 8 (by norm_num) (by norm_num) (by norm_num) (by norm_num [abs_lt])]; norm_num
    have h1 : (fin ((5853107595155047:ℤ) * 2 ^ 13) - fin ((5712370106799718:ℤ) * 2 ^ 13) : F64) = fin (2 ^ 60 + 8192) := by
      refine sub_val (Is.fin _) ?_ (near66 (by norm_num)) (by norm_num)
      rw [show ((5853107595155047:ℤ):ℝ) * 2 ^ 13 - ((5712370106799718:ℤ):ℝ) * 2 ^ 13 = 2 ^ 60 + 8192 by norm_num, hr]
    rw [h1]
    exact add_val (by rw [zero_add, hr]) (near66 (by norm_num)) (by norm_num)
  have r2 : -F64.ofNat 1 * fin (2 ^ 60 + 3840) = fin (-(2 ^ 60 + 3840)) := by
    have h1 : F64.ofNat 1 = fin 1 := (ofNat_exact (n := 1) (by norm_num)).eq_fin (by norm_num) |>.trans (by norm_num)
    rw [h1, ((Is.fin 1).neg).eq_fin (by norm_num)]
    refine mul_val ?_ (near66 (by norm_num)) (by norm_num)
    have hr : rnd ((2:ℝ) ^ 60 + 3840) = 2 ^ 60 + 3840 := by
      rw [rnd_eq (2 ^ 52 + 15) 8 (by norm_num) (by norm_num) (by norm_num) (by norm_num [abs_lt])]; norm_num
    have := FP.Lawful.rnd_neg ((2:ℝ) ^ 60 + 3840)
    rw [show (-1 : ℝ) * (2 ^ 60 + 3840) = -(2 ^ 60 + 3840) by ring]
    exact this.trans (by rw [show FP.rnd ((2:ℝ) ^ 60 + 3840) = 2 ^ 60 + 3840 from hr])
  have r3 : (fin (-(2 ^ 60 + 3840)) + fin (2 ^ 60 + 8192) : F64) = fin 4352 := by
    refine add_val ?_ (near66 (by norm_num)) (by norm_num)
    have := F64.rnd_natCast 4352 (by norm_num)
    push_cast at this
    rw [show (-(2 ^ 60 + 3840) + (2 ^ 60 + 8192) : ℝ) = 4352 by norm_num]
    exact this
  refine ⟨⟨fin (2 ^ 60 + 3840)⟩, Poisson.new_ok.2 ⟨lt_of_pos (by norm_num) (Is.fin _), rfl⟩, ?_, ?_, ?_⟩
  · unfold Poisson.logLikelihood
    simp only [List.mapM_cons, List.mapM_nil, q1, exc_ok_bind, List.length_singleton, e1, l1, q2, pure, Except.pure]
    unfold F64.sum
    rw [List.foldl_cons, List.foldl_nil, r1, r2, r3]
  · refine round_pinf (y := Real.exp 4352) ?_
    have h2 : (2:ℝ) ≤ Real.exp 1 := by linarith [Real.add_one_le_exp 1]
    calc (2:ℝ) ^ 1024 ≤ Real.exp 1 ^ 1024 := pow_le_pow_left₀ (by norm_num) h2 _
      _ = Real.exp 1024 := by rw [← Real.exp_nat_mul]; norm_num
      _ ≤ Real.exp 4352 := Real.exp_le_exp.2 (by norm_num)
  · unfold logLik
    rw [List.map_singleton, List.sum_singleton]
    exact Real.log_nonpos (by unfold poisPMF; positivity) ((pois_le_half (by positivity) (by omega)).trans (by norm_num))
end
end Rstat
