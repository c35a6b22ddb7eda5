import Verif.Props.FloatPmf3
import Verif.Lemmas.FloatErr

/-! Properties C249 and C250, continued: the Poisson law at moderate rates and outcomes, in binary64. -/
set_option linter.unusedSectionVars false
namespace Rstat
open F64 Spec

section
open B64
attribute [local instance] binary64 binary64_lawful B64.libm B64.specialFns

theorem ln_eq_round {a : F64} {x : ℝ} (ha : a.Is x) (hx : 0 < x) : a.ln = F64.round (Real.log x) := by
  rw [ha.eq_fin hx.ne']
  unfold F64.ln F64.logWith
  dsimp only
  rw [if_neg hx.ne', if_neg (not_lt.2 hx.le)]
  rfl

/-- `ln` of an exact argument -/
theorem Within.ln {a : F64} {x M ρ : ℝ} (ha : a.Is x) (hx : 0 < x) (hM : |Real.log x| ≤ M) (hs : M ≤ 2 ^ 200)
    (hr : M / 2 ^ 53 + 1 / 2 ^ 120 ≤ ρ) : Within a.ln (Real.log x) ρ := by
  rw [ln_eq_round ha hx]
  exact Within.round (ε := 0) (by simp) hM (by linarith) (by linarith)

theorem log_pow_bound {x : ℝ} {n : ℕ} (h1 : 1 / 2 ^ n ≤ x) (h2 : x ≤ 2 ^ n) : |Real.log x| ≤ 7 / 10 * n := by
  have h0 : (0:ℝ) < x := lt_of_lt_of_le (by positivity) h1
  have l2 := log_two_tight
  have hn : (0:ℝ) ≤ n := Nat.cast_nonneg n
  have a := Real.log_le_log h0 h2
  have b := Real.log_le_log (by positivity) h1
  rw [Real.log_pow] at a
  rw [one_div, Real.log_inv, Real.log_pow] at b
  rw [abs_le]
  constructor <;> nlinarith [l2.1, l2.2]

theorem ofNat_exact {n : ℕ} (h : n ≤ 2 ^ 53) : (F64.ofNat n).Is n := by
  unfold F64.ofNat
  have := F64.rnd_natCast n h
  have hr := round_is (r := (n:ℝ)) (Within.huge_ok (M := n) (by rw [abs_of_nonneg (Nat.cast_nonneg n)]) (by
    have : (n:ℝ) ≤ 2 ^ 53 := by exact_mod_cast h
    exact this.trans (by norm_num)))
  rwa [this] at hr

/-- the constant `ln(2π)/2` -/
theorem half_ln_within : Within (F64.fin (1 / 2) * (2 * F64.lit Real.pi).ln) (1 / 2 * Real.log (2 * Real.pi)) (1 / 10 ^ 12) := by
  have p1 := Real.pi_gt_three
  have p2 := Real.pi_le_four
  have h0 : Within (F64.lit Real.pi) Real.pi (4 / 2 ^ 52) :=
    Within.round (ε := 0) (M := 4) (by simp) (by rw [abs_of_pos (by linarith)]; exact p2) (by norm_num) (by norm_num)
  have h1 : Within (2 * F64.lit Real.pi) (2 * Real.pi) (16 / 2 ^ 52) :=
    Within.mul 2 4 (Within.exact (Is.num 2)) h0 (by norm_num) (by rw [abs_of_pos (by linarith)]; exact p2) (by norm_num) (by norm_num)
  obtain ⟨y, y1, y2⟩ := h1
  have y3 := abs_le.1 y2
  have s : (16:ℝ) / 2 ^ 52 ≤ 1 := by norm_num
  have y0 : 5 ≤ y := by linarith
  have y9 : y ≤ 2 ^ 4 := by norm_num; linarith
  have hl : |Real.log y - Real.log (2 * Real.pi)| ≤ 16 / 2 ^ 52 := by
    have a := Real.log_le_sub_one_of_pos (show 0 < y / (2 * Real.pi) by positivity)
    have b := Real.log_le_sub_one_of_pos (show 0 < 2 * Real.pi / y by positivity)
    rw [Real.log_div (by positivity) (by positivity)] at a b
    have a' : y / (2 * Real.pi) - 1 ≤ 16 / 2 ^ 52 := by
      rw [show y / (2 * Real.pi) - 1 = (y - 2 * Real.pi) / (2 * Real.pi) by field_simp, div_le_iff₀ (by positivity)]
      nlinarith
    have b' : 2 * Real.pi / y - 1 ≤ 16 / 2 ^ 52 := by
      rw [show 2 * Real.pi / y - 1 = (2 * Real.pi - y) / y by field_simp, div_le_iff₀ (by positivity)]
      nlinarith
    rw [abs_le]; constructor <;> linarith
  have hb : |Real.log (2 * Real.pi)| ≤ 7 / 10 * (4:ℕ) := log_pow_bound (by norm_num; linarith) (by norm_num; linarith)
  have h2 : Within (2 * F64.lit Real.pi).ln (Real.log (2 * Real.pi)) (20 / 2 ^ 52) := by
    refine Within.shift (Within.ln y1 (by linarith) (log_pow_bound (n := 4) ?_ y9) (by norm_num) le_rfl) ?_
    · norm_num; linarith
    · norm_num; norm_num at hl; linarith
  exact Within.mul (1 / 2) (7 / 10 * (4:ℕ)) (Within.exact (Is.fin (1 / 2))) h2 (by norm_num) hb (by norm_num) (by norm_num)

/-- `log_factorial_stirling` is within 2·10⁻⁷ of `ln n!` for `n ≤ 2^20` -/
theorem logFact_within (pr : Profile) {n : ℕ} (hn : n ≤ 2 ^ 20) :
    ∃ b, logFactorialStirling pr n = .ok b ∧ Within b (Real.log n.factorial) (17 / 10 ^ 8) := by
  unfold logFactorialStirling
  by_cases h : n > 254
  · rw [if_pos h, uadd_ok (by unfold U64; omega)]
    refine ⟨_, rfl, ?_⟩
    have hn' : (n:ℝ) ≤ 2 ^ 20 := by exact_mod_cast hn
    have hn0 : (255:ℝ) ≤ n := by exact_mod_cast h
    set x : ℝ := (n:ℝ) + 1 with hx
    have hx0 : 0 < x := by positivity
    have hx1 : x ≤ 2 ^ 21 := by linarith [show (2:ℝ) ^ 20 + 1 ≤ 2 ^ 21 by norm_num]
    have ex : (F64.ofNat (n + 1)).Is x := by
      have := ofNat_exact (n := n + 1) (by omega)
      push_cast at this; exact this
    have hL : |Real.log x| ≤ 15 := (log_pow_bound (n := 21) (by
      refine le_trans ?_ (by linarith : (1:ℝ) ≤ x)
      norm_num) hx1).trans (by norm_num)
    have wL := Within.ln ex hx0 hL (by norm_num) le_rfl
    have w1 : Within (F64.ofNat (n + 1) - F64.fin (1 / 2)) (x - 1 / 2) (1 / 2 ^ 31) :=
      Within.sub (2 ^ 21) (Within.exact ex) (Within.exact (Is.fin _)) (by rw [abs_of_pos (by linarith)]; linarith) (by norm_num) (by norm_num)
    have w2 : Within ((F64.ofNat (n + 1) - F64.fin (1 / 2)) * (F64.ofNat (n + 1)).ln) ((x - 1 / 2) * Real.log x) (2 / 10 ^ 8) :=
      Within.mul (2 ^ 21) 15 w1 wL (by rw [abs_of_pos (by linarith)]; linarith) hL (by norm_num) (by norm_num)
    have hL' := abs_le.1 hL
    have m1 : |(x - 1 / 2) * Real.log x| ≤ 2 ^ 21 * 15 := by
      rw [abs_mul]
      exact mul_le_mul (by rw [abs_of_pos (by linarith)]; linarith) hL (abs_nonneg _) (by norm_num)
    have w3 := Within.sub (ρ := 3 / 10 ^ 8) (2 ^ 21 * 16) w2 (Within.exact ex) (by
      refine (abs_sub _ _).trans ?_
      rw [abs_of_pos hx0]; linarith) (by norm_num) (by norm_num)
    have c0 : |1 / 2 * Real.log (2 * Real.pi)| ≤ 2 := by
      have hb : |Real.log (2 * Real.pi)| ≤ 7 / 10 * (4:ℕ) := log_pow_bound (by norm_num; linarith [Real.pi_gt_three]) (by norm_num; linarith [Real.pi_le_four])
      rw [abs_mul]; norm_num at hb ⊢; linarith
    have w4 := Within.add (ρ := 4 / 10 ^ 8) (2 ^ 21 * 17) w3 half_ln_within (by
      refine (abs_add_le _ _).trans ?_
      refine (add_le_add ((abs_sub _ _).trans (add_le_add m1 (le_of_eq (abs_of_pos hx0)))) c0).trans (by linarith)) (by norm_num) (by norm_num)
    have wc : Within (1 / (12 * F64.ofNat (n + 1))) (1 / (12 * x)) (1 / 10 ^ 12) := by
      have i1 : (12 * F64.ofNat (n + 1)).Is (12 * x) := by
        have hr : FP.rnd (12 * x) = 12 * x := by
          have := F64.rnd_natCast (12 * (n + 1)) (by omega)
          push_cast at this; exact this
        have := mul_is (Is.num 12) ex (Within.huge_ok (M := 2 ^ 25) (by rw [abs_of_pos (by linarith)]; norm_num; linarith) (by norm_num))
        change (12 * F64.ofNat (n + 1)).Is (FP.rnd (12 * x)) at this
        rwa [hr] at this
      exact Within.div_exact 1 Is.one i1 (by linarith) (by
        rw [abs_of_pos (by positivity), div_le_one (by linarith)]; linarith) (by norm_num) (by norm_num)
    have w5 := Within.add (ρ := 5 / 10 ^ 8) (2 ^ 21 * 18) w4 wc (by
      refine (abs_add_le _ _).trans ?_
      have q1 : |1 / (12 * x)| ≤ 1 := by
        rw [abs_of_pos (by positivity), div_le_one (by linarith)]; linarith
      have q2 : |(x - 1 / 2) * Real.log x - x + 1 / 2 * Real.log (2 * Real.pi)| ≤ 2 ^ 21 * 17 := by
        refine (abs_add_le _ _).trans ?_
        refine (add_le_add ((abs_sub _ _).trans (add_le_add m1 (le_of_eq (abs_of_pos hx0)))) c0).trans (by linarith)
      linarith) (by norm_num) (by norm_num)
    refine Within.shift w5 ?_
    have hst := stirling_error n
    change _ ∧ _ at hst
    have e : (x - 1 / 2) * Real.log x - x + 1 / 2 * Real.log (2 * Real.pi) + 1 / (12 * x) = stirlingFormula ((n:ℝ) + 1) := rfl
    rw [e, abs_of_nonneg hst.1]
    have hb : (1:ℝ) / (144 * ((n:ℝ) + 1) ^ 2) ≤ 1 / (144 * 256 ^ 2) := by gcongr; linarith
    refine (add_le_add (hst.2.trans hb) le_rfl).trans (by norm_num)
  · rw [if_neg h]
    have hlen : LOG_FACTORIALS_255.length = 255 := by decide +kernel
    have hg : LOG_FACTORIALS_255[n]? = some (LOG_FACTORIALS_255[n]'(by omega)) := List.getElem?_eq_getElem (by omega)
    have hb := table_bound n _ hg
    rw [hg]
    refine ⟨_, rfl, ?_⟩
    have hf : (n.factorial : ℝ) ≤ 2 ^ 2032 := by
      have h1 : n.factorial ≤ 256 ^ 254 := by
        refine (Nat.factorial_le_pow n).trans ((Nat.pow_le_pow_left (by omega : n ≤ 256) n).trans (Nat.pow_le_pow_right (by norm_num) (by omega)))
      have h2 : (n.factorial : ℝ) ≤ 256 ^ 254 := by exact_mod_cast h1
      refine h2.trans (le_of_eq ?_)
      rw [show (256:ℝ) = 2 ^ 8 by norm_num, ← pow_mul]
    have h1 : (1:ℝ) ≤ n.factorial := by exact_mod_cast n.factorial_pos
    have hl : |Real.log n.factorial| ≤ 1500 := by
      refine (log_pow_bound (n := 2032) (le_trans ?_ h1) hf).trans (by norm_num)
      rw [div_le_one (by positivity)]; exact one_le_pow₀ (by norm_num)
    exact Within.round hb hl (by norm_num) (by norm_num)

variable {a : F64} {l : ℝ} {d : Poisson}

/-- the logarithm of the mass -/
theorem pois_logPmf_within (h : Poisson.new a = .ok d) (ha : a.Is l) (h1 : 1 / 2 ^ 20 ≤ l) (h2 : l ≤ 2 ^ 20) (pr : Profile) {k : ℕ} (hk : k ≤ 2 ^ 20) :
    ∃ b, d.logPmf pr k = .ok b ∧ Within b (Real.log (poisPMF l k)) (2 / 10 ^ 7) := by
  obtain ⟨-, rfl⟩ := Poisson.new_ok.1 h
  have hl : 0 < l := lt_of_lt_of_le (by positivity) h1
  obtain ⟨b, b1, b2⟩ := logFact_within pr hk
  have hk' : (k:ℝ) ≤ 2 ^ 20 := by exact_mod_cast hk
  have hk0 : (0:ℝ) ≤ k := Nat.cast_nonneg k
  have ek := ofNat_exact (n := k) (by omega)
  have hL : |Real.log l| ≤ 14 := (log_pow_bound h1 h2).trans (by norm_num)
  have wL := Within.ln ha hl hL (by norm_num) le_rfl
  have w1 : Within (F64.ofNat k * a.ln) (k * Real.log l) (4 / 10 ^ 9) :=
    Within.mul (2 ^ 20) 14 (Within.exact ek) wL (by rw [abs_of_nonneg hk0]; exact hk') hL (by norm_num) (by norm_num)
  have m1 : |k * Real.log l| ≤ 2 ^ 20 * 14 := by
    rw [abs_mul]
    exact mul_le_mul (by rw [abs_of_nonneg hk0]; exact hk') hL (abs_nonneg _) (by norm_num)
  have m2 : |k * Real.log l - l| ≤ 2 ^ 20 * 15 := by
    refine (abs_sub _ _).trans ?_
    rw [abs_of_pos hl]; linarith
  have w2 := Within.sub (ρ := 8 / 10 ^ 9) (2 ^ 20 * 15) w1 (Within.exact ha) m2 (by norm_num) (by norm_num)
  have m3 : |Real.log k.factorial| ≤ 2 ^ 20 * 14 := by
    have f1 : (1:ℝ) ≤ k.factorial := by exact_mod_cast k.factorial_pos
    have f2 : (k.factorial : ℝ) ≤ (2 ^ 20) ^ k := by
      have : k.factorial ≤ (2 ^ 20) ^ k := (Nat.factorial_le_pow k).trans (Nat.pow_le_pow_left hk k)
      exact_mod_cast this
    rw [← pow_mul] at f2
    refine (log_pow_bound (le_trans ?_ f1) f2).trans ?_
    · rw [div_le_one (by positivity)]; exact one_le_pow₀ (by norm_num)
    · push_cast; linarith
  have w3 := Within.sub (ρ := 2 / 10 ^ 7) (2 ^ 20 * 30) w2 b2 ((abs_sub _ _).trans (by linarith)) (by norm_num) (by norm_num)
  refine ⟨_, by unfold Poisson.logPmf; rw [b1]; rfl, ?_⟩
  rw [@pois_log exactFP exactFP_exact _ hl]
  exact w3

/-- C249 Poisson: for rates between 2^-20 and 2^20 and outcomes up to 2^20 the mass is a probability. Missing: larger rates and outcomes, where
the logarithm of the mass loses all its digits (`C249_poisson_violated`), and rates below 2^-20. -/
theorem C249_poisson_partial (h : Poisson.new a = .ok d) (ha : a.Is l) (h1 : 1 / 2 ^ 20 ≤ l) (h2 : l ≤ 2 ^ 20) (pr : Profile) {k : ℕ} (hk : k ≤ 2 ^ 20) :
    ∃ P, d.pmf pr k = .ok P ∧ InUnit P.unwrap := by
  have hl : 0 < l := lt_of_lt_of_le (by positivity) h1
  suffices H : ∃ b y, d.logPmf pr k = .ok b ∧ b.Is y ∧ y ≤ 0 by
    obtain ⟨b, y, b1, b2, b3⟩ := H
    refine ⟨⟨b.exp⟩, by unfold Poisson.pmf; rw [b1]; rfl, ?_⟩
    show InUnit b.exp
    rw [exp_fin b2]
    have e0 : 0 ≤ Real.exp y := (Real.exp_pos y).le
    have e1 : Real.exp y ≤ 1 := Real.exp_le_one_iff.2 b3
    exact ⟨_, round_is (Within.huge_ok (x := Real.exp y) (M := 1) (by rw [abs_of_nonneg e0]; exact e1) (by norm_num)), rnd_nn e0, rnd_le_1 e1⟩
  rcases Nat.eq_zero_or_pos k with rfl | hk0
  · obtain ⟨-, rfl⟩ := Poisson.new_ok.1 h
    have hb : logFactorialStirling pr 0 = .ok (F64.lit ((0:ℕ) / 10 ^ 15)) := by
      unfold logFactorialStirling
      rw [if_neg (by norm_num)]; rfl
    have i0 : (F64.lit (((0:ℕ):ℝ) / 10 ^ 15)).Is 0 := by
      unfold F64.lit
      have := round_is (r := ((0:ℕ):ℝ) / 10 ^ 15) (Within.huge_ok (M := 1) (by norm_num) (by norm_num))
      rw [show ((0:ℕ):ℝ) / 10 ^ 15 = 0 by norm_num] at this ⊢
      rwa [F64.rnd_zero] at this
    have hL : |Real.log l| ≤ 14 := (log_pow_bound h1 h2).trans (by norm_num)
    obtain ⟨z, z1, z2⟩ := Within.ln ha hl hL (by norm_num) le_rfl
    have i1 : (F64.ofNat 0 * a.ln).Is 0 := by
      have e := ofNat_exact (n := 0) (by norm_num)
      rw [Nat.cast_zero] at e
      have := mul_is e z1 (Within.huge_ok (M := 1) (by norm_num) (by norm_num))
      rwa [zero_mul, F64.rnd_zero] at this
    have i2 := sub_is i1 ha (Within.huge_ok (M := 2 ^ 20) (by rw [zero_sub, abs_neg, abs_of_pos hl]; exact h2) (by norm_num))
    have n2 : FP.rnd (0 - l) ≤ 0 := by
      have := FP.Lawful.rnd_mono (show 0 - l ≤ 0 by linarith); rwa [F64.rnd_zero] at this
    have i3 := sub_is i2 i0 (by
      rw [sub_zero, FP.Lawful.rnd_idem]
      exact Within.huge_ok (M := 2 ^ 20) (by rw [zero_sub, abs_neg, abs_of_pos hl]; exact h2) (by norm_num))
    refine ⟨_, _, by unfold Poisson.logPmf; rw [hb]; rfl, i3, ?_⟩
    rw [sub_zero, FP.Lawful.rnd_idem]; exact n2
  · obtain ⟨b, b1, y, b2, b3⟩ := pois_logPmf_within h ha h1 h2 pr hk
    refine ⟨b, y, b1, b2, ?_⟩
    have := Real.log_le_log (by unfold poisPMF; positivity) (pois_le_half hl hk0)
    rw [one_div, Real.log_inv] at this
    have l2 := log_two_tight
    have := (abs_le.1 b3).2
    linarith [l2.1]

/-- C250 Poisson: for rates between 2^-20 and 2^20 and outcomes up to 2^20 the mass is the Poisson mass up to a relative error of 5·10^-7 (the
accuracy of Stirling's formula at the end of the table) and half the smallest positive number. Missing: larger rates and outcomes
(`C250_poisson_violated`), and rates below 2^-20. -/
theorem C250_poisson_partial (h : Poisson.new a = .ok d) (ha : a.Is l) (h1 : 1 / 2 ^ 20 ≤ l) (h2 : l ≤ 2 ^ 20) (pr : Profile) {k : ℕ} (hk : k ≤ 2 ^ 20) :
    ∃ P y, d.pmf pr k = .ok P ∧ P.unwrap.Is y ∧ |y - poisPMF l k| ≤ 5 / 10 ^ 7 * poisPMF l k + 1 / 2 ^ 1075 := by
  have hl : 0 < l := lt_of_lt_of_le (by positivity) h1
  have hp : 0 < poisPMF l k := by unfold poisPMF; positivity
  obtain ⟨b, b1, y, b2, b3⟩ := pois_logPmf_within h ha h1 h2 pr hk
  have hy : |Real.exp y - poisPMF l k| ≤ 4 / 10 ^ 7 * poisPMF l k := by
    have e : Real.exp y - poisPMF l k = poisPMF l k * (Real.exp (y - Real.log (poisPMF l k)) - 1) := by
      rw [Real.exp_sub, Real.exp_log hp]; field_simp
    have h1 := Real.abs_exp_sub_one_le (x := y - Real.log (poisPMF l k)) (b3.trans (by norm_num))
    rw [e, abs_mul, abs_of_pos hp]
    nlinarith
  have hp1 : poisPMF l k ≤ 2 := by
    rcases Nat.eq_zero_or_pos k with rfl | hk0
    · unfold poisPMF
      have : Real.exp (-l) ≤ 1 := Real.exp_le_one_iff.2 (by linarith)
      simp; linarith
    · linarith [pois_le_half hl hk0]
  have hy' := abs_le.1 hy
  have e0 : 0 ≤ Real.exp y := (Real.exp_pos y).le
  refine ⟨⟨b.exp⟩, FP.rnd (Real.exp y), by unfold Poisson.pmf; rw [b1]; rfl, ?_, ?_⟩
  · show b.exp.Is _
    rw [exp_fin b2]
    exact round_is (Within.huge_ok (x := Real.exp y) (M := 4) (by rw [abs_of_nonneg e0]; linarith) (by norm_num))
  · have e := FP.Lawful.rnd_err (Real.exp y)
    rw [abs_of_nonneg e0] at e
    have t := abs_add_le (FP.rnd (Real.exp y) - Real.exp y) (Real.exp y - poisPMF l k)
    rw [sub_add_sub_cancel] at t
    have s : Real.exp y / 2 ^ 53 ≤ 1 / 10 ^ 7 * poisPMF l k := by
      rw [div_le_iff₀ (by positivity)]; nlinarith
    generalize (1:ℝ) / 2 ^ 1075 = η at *
    linarith

/-! ### instances -/
theorem unit_quarter {r : ℝ} (h0 : 0 ≤ r) (h1 : r ≤ 1) : (0 : F64) ≤ fin r ∧ fin r ≤ (1 : F64) :=
  ⟨(Is.zero.le_iff (Is.fin r)).2 h0, ((Is.fin r).le_iff Is.one).2 h1⟩

example : ∃ d, Bernoulli.new (fin (1 / 4)) = .ok d ∧ InUnit (d.pmf true).unwrap ∧ InUnit (d.pmf false).unwrap := by
  have h := Bernoulli.new_ok.2 ⟨unit_quarter (r := 1 / 4) (by norm_num) (by norm_num), rfl⟩
  exact ⟨_, h, C249_bernoulli h true, C249_bernoulli h false⟩
/-- a success probability of 1/2: outcome 10 has its mass up to 2^-45, outcome 2^31 has an infinite mass -/
example : ∃ d, Geometric.new (fin (1 / 2)) = .ok d ∧ InUnit (d.pmf 10).unwrap ∧
    (∃ y, (d.pmf 10).unwrap.Is y ∧ |y - geomPMF (1 / 2) 10| ≤ 1 / 2 ^ 45) ∧
    (∃ P y, d.cdf .debug 10 = .ok P ∧ P.unwrap.Is y ∧ |y - ∑ j ∈ Finset.range 11, geomPMF (1 / 2) j| ≤ 1 / 2 ^ 45) ∧
    ¬ InUnit (d.pmf (2 ^ 31)).unwrap := by
  have h := Geometric.new_ok.2 ⟨unit_quarter (r := 1 / 2) (by norm_num) (by norm_num), rfl⟩
  refine ⟨_, h, C249_geometric_partial h (by norm_num), ?_, ?_, (C249_geometric_violated h (Is.fin _) le_rfl le_rfl (by norm_num)).2⟩
  · obtain ⟨y, h1, h2⟩ := C250_geometric_pmf h (Is.fin _) (k := 10) (by norm_num)
    refine ⟨y, h1, h2.trans ?_⟩
    have t : (1:ℝ) / 2 ^ 1030 ≤ 1 / 2 ^ 120 := one_div_le_one_div_of_le (by positivity) (pow_le_pow_right₀ (by norm_num) (by norm_num))
    refine (add_le_add le_rfl t).trans ?_
    norm_num [geomPMF]
  · obtain ⟨P, y, h1, h2, -, h3⟩ := C250_geometric_cdf h (Is.fin _) .debug (k := 10) (by norm_num)
    exact ⟨P, y, h1, h2, h3.trans (by norm_num)⟩
/-- ten fair trials -/
example : ∃ d R, Binomial.new 10 ⟨fin (1 / 2)⟩ = .ok d ∧ d.pmf .debug 3 = .ok R ∧ InUnit R.unwrap ∧ (∃ y, R.unwrap.Is y ∧ |y - 120 / 1024| ≤ 1 / 2 ^ 43) := by
  have h := (Binomial.new_ok (n := 10) (P := ⟨fin (1 / 2)⟩)).2 ⟨unit_quarter (r := 1 / 2) (by norm_num) (by norm_num), rfl⟩
  obtain ⟨R, h1, h2⟩ := C249_binomial_partial h .debug (k := 3) (by norm_num) (by norm_num) (by norm_num) (fun i _ => choose_fit_62 10 (by norm_num) i)
  obtain ⟨R', y, h3, h4, h5⟩ := C250_binomial_62 h (Is.fin _) (by norm_num) .debug (k := 3) (by norm_num)
  have hR : R' = R := by rw [h1] at h3; exact (Except.ok.inj h3).symm
  subst hR
  refine ⟨_, R', h, h1, h2, y, h4, ?_⟩
  have t : (1:ℝ) / 2 ^ 960 ≤ 1 / 2 ^ 120 := one_div_le_one_div_of_le (by positivity) (pow_le_pow_right₀ (by norm_num) (by norm_num))
  have e : binPMF 10 (1 / 2) 3 = 120 / 1024 := by norm_num [binPMF, Nat.choose]
  rw [e] at h5
  exact h5.trans ((add_le_add le_rfl t).trans (by norm_num))
/-- 2^31 fair trials -/
example : ∃ d R, Binomial.new (2 ^ 31) ⟨fin (1 / 2)⟩ = .ok d ∧ d.pmf .debug 0 = .ok R ∧ ¬ InUnit R.unwrap := by
  have h := (Binomial.new_ok (n := 2 ^ 31) (P := ⟨fin (1 / 2)⟩)).2 ⟨unit_quarter (r := 1 / 2) (by norm_num) (by norm_num), rfl⟩
  obtain ⟨R, h1, -, h2⟩ := C249_binomial_violated h (Is.fin _) le_rfl le_rfl (by norm_num) .debug
  exact ⟨_, R, h, h1, h2⟩
/-- the six integers from -2 to 3 -/
example : ∃ d P, UniformI.new .debug (-2) 5 = .ok (.ok d) ∧ d.pmf .debug 1 = .ok P ∧ InUnit P.unwrap ∧
    (∃ Q R, d.cdf .debug 0 = .ok Q ∧ d.cdf .debug 1 = .ok R ∧ Q.unwrap ≤ R.unwrap) := by
  have hf : UniformI.Fits (-2) 5 := by unfold UniformI.Fits; norm_num
  have h := (UniformI.new_ok (pr := .debug) hf).2 ⟨by norm_num, rfl⟩
  obtain ⟨P, h1, h2⟩ := C249_uniform_int_partial hf h 1
  obtain ⟨Q, R, q1, q2, -, -, q3⟩ := C250_uniform_int_cdf hf h (j := 0) (k := 1) (by norm_num)
  exact ⟨_, P, h, h1, h2, Q, R, q1, q2, q3⟩
/-- rate 3, outcome 300 (beyond the table of factorials) -/
example : ∃ d P y, Poisson.new (fin 3) = .ok d ∧ d.pmf .debug 300 = .ok P ∧ P.unwrap.Is y ∧
    |y - poisPMF 3 300| ≤ 5 / 10 ^ 7 * poisPMF 3 300 + 1 / 2 ^ 1075 := by
  have h := (Poisson.new_ok (a := fin 3)).2 ⟨lt_of_pos (by norm_num) (Is.fin _), rfl⟩
  obtain ⟨P, y, h1, h2, h3⟩ := C250_poisson_partial h (Is.fin 3) (by norm_num) (by norm_num) .debug (k := 300) (by norm_num)
  exact ⟨_, P, y, h, h1, h2, h3⟩
end
end Rstat
