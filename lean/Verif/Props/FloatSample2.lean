import Verif.Props.FloatSample
import Verif.Lemmas.B64Eval
import Verif.Props.FloatAccuracy3

/-! C252: counterexamples in binary64, and cases that meet the hypotheses. -/
set_option linter.unusedSectionVars false
namespace Rstat
open F64 Spec Consts
section
open B64
attribute [local instance] binary64 binary64_lawful B64.libm B64.specialFns B64.accurate

theorem pow_lt1024 (n : ℕ) (h : n ≤ 1023) : |(2:ℝ) ^ n| < 2 ^ 1024 := by
  rw [abs_of_pos (by positivity)]; exact pow_lt_pow_right₀ (by norm_num) (by omega)
theorem rnd_pow (n : ℕ) : rnd ((2:ℝ) ^ n) = 2 ^ n := by
  have := rnd_two_pow (e := (n:ℤ)) (by omega); rwa [zpow_natCast] at this
theorem mul_pow (i j k : ℕ) (hk : k ≤ 1023) (h : i + j = k) : fin (2 ^ i) * fin (2 ^ j) = fin ((2:ℝ) ^ k) :=
  mul_val (by rw [← pow_add, h]; exact rnd_pow k) (pow_lt1024 k hk) (by positivity)
theorem div_pow' (i j k : ℕ) (hk : k ≤ 1023) (h : k + j = i) : fin (2 ^ i) / fin (2 ^ j) = fin ((2:ℝ) ^ k) :=
  div_val (by positivity) (by rw [← h, pow_add, mul_div_assoc, div_self (by positivity), mul_one]; exact rnd_pow k) (pow_lt1024 k hk) (by positivity)
theorem rnd_absorb1 : rnd ((2:ℝ) ^ 60 + 2 ^ 119) = 2 ^ 119 := by
  have := rnd_eq (x := (2:ℝ) ^ 60 + 2 ^ 119) (2 ^ 52) 67 (by norm_num) (by norm_num) (by norm_num) (by norm_num)
  rw [this]; norm_num
theorem rnd_absorb2 : rnd ((2:ℝ) ^ 62 + 2 ^ 120) = 2 ^ 120 := by
  have := rnd_eq (x := (2:ℝ) ^ 62 + 2 ^ 120) (2 ^ 52) 68 (by norm_num) (by norm_num) (by norm_num) (by norm_num)
  rw [this]; norm_num
theorem sub_self_fin {r : ℝ} (h : r ≠ 0) : fin r - fin r = fin 0 := by
  change F64.add (fin r) (F64.neg (fin r)) = fin 0
  simp only [F64.neg, h, if_false, F64.add]
  rw [show (fin r).toReal + (fin (-r)).toReal = 0 from add_neg_cancel r]
  unfold F64.round
  rw [F64.rnd_zero]
  simp [not_huge_zero]
theorem one1024 : |(1:ℝ)| < 2 ^ 1024 := by rw [abs_one]; exact one_lt_pow₀ (by norm_num) (by norm_num)
theorem exp256 : (2:ℝ) ^ 256 ≤ Real.exp 256 ∧ Real.exp 256 ≤ 2 ^ 384 := by
  have h1 : Real.exp 256 = Real.exp 1 ^ 256 := by rw [← Real.exp_nat_mul]; norm_num
  have h2 : Real.exp 256 = (Real.exp 1 ^ 2) ^ 128 := by rw [← pow_mul, ← Real.exp_nat_mul]; norm_num
  have a := Real.exp_one_gt_d9
  have b := Real.exp_one_lt_d9
  constructor
  · rw [h1]; gcongr; linarith
  · rw [h2, show (2:ℝ) ^ 384 = 8 ^ 128 by rw [show (8:ℝ) = 2 ^ 3 by norm_num, ← pow_mul]]
    have : Real.exp 1 ^ 2 ≤ 8 := by nlinarith
    gcongr
theorem exp128 : Real.exp 128 ≤ 2 ^ 192 := by
  have h2 : Real.exp 128 = (Real.exp 1 ^ 2) ^ 64 := by rw [← pow_mul, ← Real.exp_nat_mul]; norm_num
  have a := Real.exp_one_gt_d9
  have b := Real.exp_one_lt_d9
  rw [h2, show (2:ℝ) ^ 192 = 8 ^ 64 by rw [show (8:ℝ) = 2 ^ 3 by norm_num, ← pow_mul]]
  have : Real.exp 1 ^ 2 ≤ 8 := by nlinarith
  gcongr
theorem keepP (n : ℕ) (h : n ≤ 1023) : Keep ((2:ℝ) ^ n) := ⟨rnd_pow n, not_le.2 (pow_lt1024 n h)⟩
theorem invn_x : fin (2 ^ 60) + fin (2 ^ 60) * fin (2 ^ 60) * (fin 1 * fin 1) / 2 / fin 1
      - fin (2 ^ 60) / 2 / fin 1 * (4 * fin (2 ^ 60) * fin 1 * (fin 1 * fin 1) + fin (2 ^ 60) * fin (2 ^ 60) * (fin 1 * fin 1) * (fin 1 * fin 1)).sqrt = fin 0 := by
  have e1 : fin 1 = fin ((2:ℝ) ^ 0) := by norm_num
  have e2 : (2 : F64) = fin ((2:ℝ) ^ 1) := by rw [pow_one]; exact num_fin (Is.num 2) (by norm_num)
  have e4 : (4 : F64) = fin ((2:ℝ) ^ 2) := by rw [show (2:ℝ) ^ 2 = 4 by norm_num]; exact num_fin (Is.num 4) (by norm_num)
  have hs : (fin ((2:ℝ) ^ 120)).sqrt = fin (2 ^ 60) := by
    have h0 : ¬ (2:ℝ) ^ 120 < 0 := not_lt.2 (by positivity)
    have h1 : Real.sqrt ((2:ℝ) ^ 120) = 2 ^ 60 := by
      rw [show (2:ℝ) ^ 120 = (2 ^ 60) ^ 2 by norm_num]; exact Real.sqrt_sq (by positivity)
    unfold F64.sqrt
    dsimp only
    rw [if_neg h0, h1]
    exact round_val (rnd_pow 60) (pow_lt1024 60 (by norm_num)) (by positivity)
  rw [e1, e2, e4, mul_pow 60 60 120 (by norm_num) rfl, mul_pow 0 0 0 (by norm_num) rfl, mul_pow 120 0 120 (by norm_num) rfl,
    mul_pow 120 0 120 (by norm_num) rfl, div_pow' 120 1 119 (by norm_num) rfl, div_pow' 119 0 119 (by norm_num) rfl,
    div_pow' 60 1 59 (by norm_num) rfl, div_pow' 59 0 59 (by norm_num) rfl, mul_pow 2 60 62 (by norm_num) rfl,
    mul_pow 62 0 62 (by norm_num) rfl, mul_pow 62 0 62 (by norm_num) rfl,
    add_val rnd_absorb2 (pow_lt1024 120 (by norm_num)) (by positivity), hs, mul_pow 59 60 119 (by norm_num) rfl,
    add_val rnd_absorb1 (pow_lt1024 119 (by norm_num)) (by positivity)]
  exact sub_self_fin (by positivity)

/-- C252 (inverse normal, violated): with `mu = 2^60`, `lambda = 1` and the normal variate 1, the sample is zero or `+inf`, whatever the
uniform variate: cancellation destroys the value, which should be close to 1. -/
theorem C252_inverse_normal_violated : ∃ d, InvNormal.new (fin (2 ^ 60)) (fin 1) = .ok d ∧
    ∀ (σ : Type) (g : NormalRng σ) (u : σ → F64 × σ) (s : σ), (g.draw s).1 = fin 1 →
      ((d.sample g u s).1 = .ok (fin 0) ∨ (d.sample g u s).1 = .ok pinf) ∧ ¬ InSupport d.support (d.sample g u s).1 := by
  refine ⟨_, InvNormal.new_ok.2 ⟨lt_of_pos (by positivity) (Is.fin _), lt_of_pos one_pos (Is.fin _), rfl⟩, fun σ g u s hn => ?_⟩
  have key : ∀ r : Except Panic F64, r = .ok (fin 0) ∨ r = .ok pinf → ¬ InSupport .positive r := by
    rintro r (rfl | rfl) ⟨x, y, hx, hy, hp⟩ <;> cases hx
    · rw [hy.eq (Is.fin 0)] at hp; exact lt_irrefl (0:ℝ) hp
    · rcases hy with h | ⟨h, _⟩ <;> cases h
  refine (fun h => ⟨h, key _ h⟩) ?_
  have hq : (F64.sqrt 1) = fin 1 := by
    change (fin 1).sqrt = _
    unfold F64.sqrt
    dsimp only
    rw [if_neg (by norm_num), Real.sqrt_one]
    exact F64.round_one
  have h1 : (UvNormal.standard.sample g s) = (.ok (fin 1), (g.draw s).2) := by
    unfold UvNormal.sample UvNormal.standard UvNormal.newUnchecked
    dsimp only
    rw [hq, if_pos (Is.fin 1).isFinite, hn]
    have e1 : fin 1 * fin 1 = fin 1 := mul_val (by rw [mul_one]; exact F64.rnd_one) one1024 one_ne_zero
    have e2 : (0 : F64) + fin 1 = fin 1 := add_val (a := 0) (by rw [zero_add]; exact F64.rnd_one) one1024 one_ne_zero
    rw [e1, e2]
  unfold InvNormal.sample
  dsimp only
  rw [h1]
  dsimp only
  unfold InvNormal.sampleFrom
  dsimp only
  rw [invn_x]
  split_ifs
  · exact Or.inl rfl
  · refine Or.inr ?_
    rw [mul_pow 60 60 120 (by norm_num) rfl]
    change Except.ok (F64.div _ _) = _
    simp [F64.div, sinf]

/-- C252 (log-normal, violated): the log-normal distribution with parameters 0 and 16 is sampled with its own mean and standard deviation
as parameters; the normal variates 1 and -1 give `+inf` and zero. -/
theorem C252_lognormal_violated : ∃ d, LogNormal.new 0 (fin 16) = .ok d ∧
    ∀ (σ : Type) (g : NormalRng σ) (s : σ),
      ((g.draw s).1 = fin 1 → (d.sample g s).1 = .ok pinf) ∧ ((g.draw s).1 = fin (-1) → ∃ x, (d.sample g s).1 = .ok x ∧ x.Is 0) := by
  refine ⟨_, LogNormal.new_ok.2 ⟨lt_of_pos (by norm_num) (Is.fin _), rfl⟩, fun σ g s => ?_⟩
  have e2 : (2 : F64) = fin ((2:ℝ) ^ 1) := by rw [pow_one]; exact num_fin (Is.num 2) (by norm_num)
  have e16 : fin 16 = fin ((2:ℝ) ^ 4) := by norm_num
  have s2 : fin 16 * fin 16 = fin (2 ^ 8) := by rw [e16]; exact mul_pow 4 4 8 (by norm_num) rfl
  have hm : Btw 0 (2 ^ 192) (LogNormal.mean ⟨⟨0, fin 16⟩⟩) := by
    unfold LogNormal.mean
    dsimp only
    rw [s2, e2, div_pow' 8 1 7 (by norm_num) rfl,
      show (0 : F64) + fin (2 ^ 7) = fin (2 ^ 7) from add_val (a := 0) (by rw [zero_add]; exact rnd_pow 7) (pow_lt1024 7 (by norm_num)) (by positivity),
      exp_fin (Is.fin _)]
    refine round_btw (keep 0 0) (keepP 192 (by norm_num)) (Real.exp_pos _).le ?_
    rw [show (2:ℝ) ^ 7 = 128 by norm_num]; exact exp128
  have hx : Btw (2 ^ 256) (2 ^ 384) (fin (2 ^ 8)).exp := by
    rw [exp_fin (Is.fin _), show (2:ℝ) ^ 8 = 256 by norm_num]
    exact round_btw (keepP 256 (by norm_num)) (keepP 384 (by norm_num)) exp256.1 exp256.2
  have hv : Btw (2 ^ 510) (2 ^ 768) (LogNormal.variance ⟨⟨0, fin 16⟩⟩) := by
    unfold LogNormal.variance
    dsimp only
    have hz : (2 : F64) * 0 + fin (2 ^ 8) = fin (2 ^ 8) := by
      rw [show (2 : F64) * 0 = fin 0 by rw [e2]; change F64.mul (fin _) (fin 0) = _; simp [F64.mul, szero]]
      exact add_val (a := 0) (by rw [zero_add]; exact rnd_pow 8) (pow_lt1024 8 (by norm_num)) (by positivity)
    rw [s2, hz]
    have h1 : Btw (2 ^ 254) (2 ^ 384) ((fin (2 ^ 8)).exp - 1) := hx.sub (Btw.num Is.one) (keepP 254 (by norm_num)) (keepP 384 (by norm_num))
      fun x y a b c d => by
        have e : (2:ℝ) ^ 256 = 4 * 2 ^ 254 := by rw [pow_succ, pow_succ]; ring
        have o : (1:ℝ) ≤ 2 ^ 254 := one_le_pow₀ (by norm_num)
        rw [e] at a
        clear e hx
        generalize (2:ℝ) ^ 254 = A at *
        generalize (2:ℝ) ^ 384 = B at *
        constructor <;> linarith
    refine h1.mul hx (keepP 510 (by norm_num)) (keepP 768 (by norm_num)) fun x y a b c d => ?_
    rw [show (2:ℝ) ^ 510 = 2 ^ 254 * 2 ^ 256 by rw [← pow_add], show (2:ℝ) ^ 768 = 2 ^ 384 * 2 ^ 384 by rw [← pow_add]]
    have : (0:ℝ) ≤ 2 ^ 254 := by positivity
    have : (0:ℝ) ≤ 2 ^ 256 := by positivity
    have : 0 ≤ x := by linarith
    have : 0 ≤ y := by linarith
    constructor <;> gcongr
  have hs : Btw (2 ^ 255) (2 ^ 384) (LogNormal.standardDeviation ⟨⟨0, fin 16⟩⟩) := by
    unfold LogNormal.standardDeviation
    obtain ⟨v, e, v0, v1, v2⟩ := hv.pos (by positivity)
    rw [e]
    unfold F64.sqrt
    dsimp only
    rw [if_neg (not_lt.2 v0.le)]
    refine round_btw (keepP 255 (by norm_num)) (keepP 384 (by norm_num)) ?_ ?_
    · refine Real.le_sqrt_of_sq_le ?_
      rw [← pow_mul]; exact v1
    · rw [Real.sqrt_le_left (by positivity), ← pow_mul]; exact v2
  obtain ⟨m, hm0, m0, m1⟩ := hm
  obtain ⟨q, hq, q0, q1, q2⟩ := hs.pos (by positivity)
  have hsam : (LogNormal.sample ⟨⟨0, fin 16⟩⟩ g s).1 = .ok (LogNormal.mean ⟨⟨0, fin 16⟩⟩ + LogNormal.standardDeviation ⟨⟨0, fin 16⟩⟩ * (g.draw s).1).exp := by
    unfold LogNormal.sample
    rw [if_pos (by rw [hq]; exact (Is.fin q).isFinite)]
  have M : (2:ℝ) ^ 192 ≤ 2 ^ 254 := pow_le_pow_right₀ (by norm_num) (by norm_num)
  have M2 : (2:ℝ) ^ 255 = 2 * 2 ^ 254 := by rw [pow_succ]; ring
  constructor <;> intro hn
  · rw [hsam, hn, hq]
    have h1 : Btw (2 ^ 254) (2 ^ 384) (fin q * fin 1) := (Btw.num (Is.fin q)).mul (Btw.num (Is.fin 1)) (keepP 254 (by norm_num)) (keepP 384 (by norm_num))
      fun x y a b c d => by
        have : y = 1 := le_antisymm d c
        subst this
        have : (0:ℝ) ≤ 2 ^ 254 := by positivity
        rw [M2] at q1
        rw [mul_one]; exact ⟨by linarith only [a, q1, this], by linarith only [b, q2]⟩
    have h2 : Btw (2 ^ 254) (2 ^ 385) (LogNormal.mean ⟨⟨0, fin 16⟩⟩ + fin q * fin 1) := (Btw.num hm0).add h1 (keepP 254 (by norm_num)) (keepP 385 (by norm_num))
      fun x y a b c d => by
        have e : (2:ℝ) ^ 385 = 2 * 2 ^ 384 := by rw [pow_succ]; ring
        have e3 : (2:ℝ) ^ 192 ≤ 2 ^ 384 := pow_le_pow_right₀ (by norm_num) (by norm_num)
        rw [e]
        exact ⟨by linarith only [a, m0, c], (add_le_add (b.trans (m1.trans e3)) d).trans (by rw [two_mul])⟩
    obtain ⟨x, hx1, x0, x1, -⟩ := h2.pos (by positivity)
    rw [hx1, exp_fin (Is.fin _)]
    refine congrArg _ (round_pinf ?_)
    refine le_trans ?_ (Real.exp_le_exp.2 (show (1024:ℝ) ≤ x from le_trans (by norm_num) x1))
    have h3 : Real.exp 1024 = Real.exp 1 ^ 1024 := by rw [← Real.exp_nat_mul]; norm_num
    have a := Real.exp_one_gt_d9
    rw [h3]; gcongr; linarith
  · refine ⟨_, hsam, ?_⟩
    rw [hn, hq]
    have kn : ∀ n : ℕ, n ≤ 1023 → Keep (-(2:ℝ) ^ n) := fun n h => by
      refine ⟨by rw [FP.Lawful.rnd_neg, (keepP n h).1], ?_⟩
      rw [FP.Lawful.huge_neg]; exact (keepP n h).2
    have h1 : Btw (-2 ^ 384) (-2 ^ 255) (fin q * fin (-1)) := (Btw.num (Is.fin q)).mul (Btw.num (Is.fin (-1))) (kn 384 (by norm_num)) (kn 255 (by norm_num))
      fun x y a b c d => by
        have : y = -1 := le_antisymm d c
        subst this
        exact ⟨by linarith only [b, q2], by linarith only [a, q1]⟩
    have h2 : Btw (-2 ^ 385) (-2 ^ 254) (LogNormal.mean ⟨⟨0, fin 16⟩⟩ + fin q * fin (-1)) := (Btw.num hm0).add h1 (kn 385 (by norm_num)) (kn 254 (by norm_num))
      fun x y a b c d => by
        have e : (2:ℝ) ^ 385 = 2 * 2 ^ 384 := by rw [pow_succ]; ring
        have e3 : (0:ℝ) ≤ 2 ^ 384 := by positivity
        rw [e]
        rw [M2] at d
        refine ⟨?_, by linarith only [b, m1, d, M]⟩
        generalize (2:ℝ) ^ 384 = B at c e3 ⊢
        linarith only [a, m0, c, e3]
    obtain ⟨x, hx1, -, x1⟩ := h2
    rw [exp_fin hx1]
    have hle : Real.exp x ≤ (2 ^ 1100)⁻¹ := by
      have x2 : x ≤ -1100 := x1.trans (by norm_num)
      refine (Real.exp_le_exp.2 x2).trans ?_
      rw [Real.exp_neg]
      have h3 : Real.exp 1100 = Real.exp 1 ^ 1100 := by rw [← Real.exp_nat_mul]; norm_num
      have a := Real.exp_one_gt_d9
      rw [h3]; gcongr; linarith
    have h4 : rnd (Real.exp x) = 0 := by
      have e : (2:ℝ) ^ (-1074:ℤ) = (2 ^ 1074)⁻¹ := by rw [zpow_neg]; rfl
      have := rnd_eq_sub (x := Real.exp x) 0 (Real.exp_pos x) (lt_of_le_of_lt hle (by
        rw [show (2:ℝ) ^ (-1022:ℤ) = (2 ^ 1022)⁻¹ by rw [zpow_neg]; rfl]
        exact inv_strictAnti₀ (by positivity) (pow_lt_pow_right₀ (by norm_num) (by norm_num)))) (by
        rw [Int.cast_zero, sub_zero, abs_of_pos (by positivity), e, div_inv_eq_mul]
        calc Real.exp x * 2 ^ 1074 ≤ (2 ^ 1100)⁻¹ * 2 ^ 1074 := by gcongr
          _ = (2 ^ 26)⁻¹ := by rw [show (2:ℝ) ^ 1100 = 2 ^ 26 * 2 ^ 1074 by rw [← pow_add], mul_inv, mul_assoc, inv_mul_cancel₀ (by positivity), mul_one]
          _ < 1 / 2 := by norm_num)
      simpa using this
    have := F64.round_is (r := Real.exp x) (show ¬ FP.huge (rnd (Real.exp x)) by rw [h4]; exact not_huge_zero)
    rw [show FP.rnd (Real.exp x) = rnd (Real.exp x) from rfl, h4] at this
    exact this

/-! ### cases that meet the hypotheses -/
/-- a source of normal variates that alternates between `3/2` and `-1/4` -/
noncomputable def altNormal : NormalRng Bool := ⟨fun b => (if b then fin (3 / 2) else fin (-1 / 4), !b)⟩
theorem altNormal_inRange : NormalInRange altNormal := fun s => by
  cases s
  · exact ⟨-1 / 4, Is.fin _, by rw [abs_le]; constructor <;> norm_num⟩
  · exact ⟨3 / 2, Is.fin _, by rw [abs_le]; constructor <;> norm_num⟩
/-- a source of uniform variates that alternates between the two ends of the interval -/
noncomputable def altSrc : RandSrc Bool where
  draw c b := (match c with
    | .uniformIncl lo hi => if b then lo else hi
    | .uniform lo _ => lo
    | _ => 0, !b)
  drawNat _ b := (0, !b)
  drawInt lo _ b := (lo, !b)
  genBool _ b := (b, !b)
theorem altSrc_inRange : InRange altSrc := fun lo hi s => by
  refine ⟨fun h => ?_, fun h => ⟨le_rfl' (ne_nan_left (le_of_lt' h)), h⟩⟩
  cases s
  · exact ⟨h, le_rfl' (ne_nan_right h)⟩
  · exact ⟨le_rfl' (ne_nan_left h), h⟩

example : ∃ d, Kumaraswamy.new (fin 2) (fin 3) = .ok d ∧ ∀ s, InSupport d.support (d.sample altSrc s).1 :=
  ⟨_, Kumaraswamy.new_ok.2 ⟨lt_of_pos two_pos (Is.fin _), lt_of_pos three_pos (Is.fin _), rfl⟩, fun s =>
    C252_kumaraswamy altSrc_inRange s (Kumaraswamy.new_ok.2 ⟨lt_of_pos two_pos (Is.fin _), lt_of_pos three_pos (Is.fin _), rfl⟩)⟩
example : ∃ d, Kumaraswamy.new pinf (fin 3) = .ok d ∧ ∀ s, InSupport d.support (d.sample altSrc s).1 := by
  have h : Kumaraswamy.new pinf (fin 3) = .ok ⟨pinf, fin 3⟩ := Kumaraswamy.new_ok.2 ⟨⟨0, ⊤, rfl, rfl, by simp⟩, lt_of_pos three_pos (Is.fin _), rfl⟩
  exact ⟨_, h, fun s => C252_kumaraswamy altSrc_inRange s h⟩
example : ∃ d, Frechet.new (fin 2) = .ok d ∧ (∀ s, ∃ x, (d.sample altSrc s).1 = .ok x ∧ (0 : F64) ≤ x) ∧ ¬ InSupport d.support (d.sample altSrc true).1 := by
  have h : Frechet.new (fin 2) = .ok ⟨fin 2⟩ := Frechet.new_ok.2 ⟨lt_of_pos two_pos (Is.fin _), rfl⟩
  refine ⟨_, h, fun s => C252_frechet_partial altSrc_inRange s h, ?_⟩
  have h2 : (2:ℝ) ≤ 2 ^ 1000 := le_self_pow₀ (by norm_num) (by norm_num)
  rintro ⟨x, y, hx, hy, -⟩
  rw [(C252_frechet_violated h (Is.fin 2) h2).1 Bool altSrc true Is.zero] at hx
  cases hx
  rcases hy with h | ⟨h, _⟩ <;> cases h
example : ∃ d, Laplace.new 0 (fin 1) = .ok d ∧ (∀ s, ∃ x, (d.sample altSrc s).1 = .ok x ∧ x ≠ nan) ∧ ∀ s, (d.sample altSrc s).1 = .ok ninf := by
  have h : Laplace.new 0 (fin 1) = .ok ⟨0, fin 1⟩ := Laplace.new_ok.2 ⟨lt_of_pos one_pos (Is.fin _), rfl⟩
  have hr : (fin 1).Rep 1 := ⟨Is.fin 1, F64.rnd_one, not_huge_one⟩
  exact ⟨_, h, fun s => C252_laplace_partial altSrc_inRange s h Is.zero hr, fun s => (C252_laplace_violated h Is.zero hr).1 Bool altSrc s (Is.fin _)⟩
example : ∃ d, UniformF.new (fin 2) (fin 1) = .ok d ∧ ∀ s, InSupport d.space (d.sample altSrc s).1 := by
  have h := (UniformF.new_ok (a := fin 2) (b := fin 1)).2 ⟨lt_of_pos one_pos (Is.fin _), rfl⟩
  have r2 : (fin 2).Rep 2 := ⟨Is.fin 2, by have := rnd_pow 1; rw [pow_one] at this; exact this, by have := (keepP 1 (by norm_num)).2; rwa [pow_one] at this⟩
  have h3 : fin 2 + fin 1 = fin 3 := add_val (by
    rw [show (2 + 1 : ℝ) = ((3 : ℕ) : ℝ) by norm_num, show rnd ((3:ℕ):ℝ) = FP.rnd ((3:ℕ):ℝ) from rfl, F64.rnd_natCast 3 (by norm_num)]; norm_num)
    (lt_of_lt_of_le (b := (2:ℝ) ^ 2) (by norm_num [abs_of_pos]) (pow_le_pow_right₀ (by norm_num) (by norm_num))) (by norm_num)
  exact ⟨_, h, fun s => C252_uniform altSrc_inRange s h r2 (by rw [h3]; exact (Is.fin 3).isFinite)⟩
example : ∃ d, FoldedNormal.new (fin (-3)) (fin 2) = .ok d ∧ ∀ s, InSupport d.support (d.sample altNormal s).1 := by
  have h := (FoldedNormal.new_ok (a := fin (-3)) (b := fin 2)).2 ⟨lt_of_pos two_pos (Is.fin _), rfl⟩
  have h1 : |(-3:ℝ)| ≤ 2 ^ 1000 := le_trans (b := (2:ℝ) ^ 2) (by norm_num) (pow_le_pow_right₀ (by norm_num) (by norm_num))
  exact ⟨_, h, fun s => C252_folded_normal altNormal_inRange s h (Is.fin _) (Is.fin _) h1 (le_self_pow₀ (by norm_num) (by norm_num))⟩
example : ∃ d, UvNormal.new (fin (-3)) (fin 2) = .ok d ∧ ∀ s, InSupport d.support (d.sample altNormal s).1 := by
  have h := (UvNormal.new_ok (a := fin (-3)) (b := fin 2)).2 ⟨lt_of_pos two_pos (Is.fin _), rfl⟩
  have h1 : |(-3:ℝ)| ≤ 2 ^ 1000 := le_trans (b := (2:ℝ) ^ 2) (by norm_num) (pow_le_pow_right₀ (by norm_num) (by norm_num))
  exact ⟨_, h, fun s => C252_normal altNormal_inRange s h (Is.fin _) (Is.fin _) h1 (le_self_pow₀ (by norm_num) (by norm_num))⟩
end
end Rstat
