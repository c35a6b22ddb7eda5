import Verif.Props.FloatPmf
import Verif.Props.FloatMean
import Verif.Props.Dist.Poisson
import Verif.Lemmas.B64Eval

/-! Properties C249 and C250, continued: the discrete uniform law, and the violations, in binary64. -/
set_option linter.unusedSectionVars false
namespace Rstat
open F64 Spec

section
variable [FP] [FP.Lawful] {pr : Profile} {lb : ℤ} {w : ℕ} {d : UniformI}

/-- an i64 converted to f64 -/
theorem ofInt_is {n : ℤ} (h : |n| ≤ 2 ^ 64) : (F64.ofInt n).Is (FP.rnd n) := by
  unfold F64.ofInt
  refine round_is (FP.Lawful.not_huge _ ?_)
  have h' : |(n:ℝ)| ≤ 2 ^ 64 := by exact_mod_cast h
  have e := FP.Lawful.rnd_err (n:ℝ)
  have s1 : (1:ℝ) / 2 ^ 1075 ≤ 1 := by rw [div_le_one (by positivity)]; exact one_le_pow₀ (by norm_num)
  have s2 : (2:ℝ) ^ 66 ≤ 2 ^ 1023 := pow_le_pow_right₀ (by norm_num) (by norm_num)
  have h2 : |FP.rnd (n:ℝ)| ≤ |FP.rnd (n:ℝ) - n| + |(n:ℝ)| := by
    have := abs_add_le (FP.rnd (n:ℝ) - n) n
    rwa [sub_add_cancel] at this
  have e' : |FP.rnd (n:ℝ) - n| ≤ 2 ^ 64 / 2 ^ 53 + 1 := e.trans (add_le_add (div_le_div_of_nonneg_right h' (by norm_num)) s1)
  generalize (2:ℝ) ^ 1023 = H at *
  linarith

/-- the mass of a discrete uniform law -/
theorem unif_prob (hf : UniformI.Fits lb w) (h : UniformI.new pr lb w = .ok (.ok d)) :
    d.lb = lb ∧ d.width = w ∧ 0 < w ∧ ∃ X, 2 ≤ X ∧ X = FP.rnd ((w:ℝ) + 1) ∧ d.prob.Is (FP.rnd (1 / X)) ∧ 0 ≤ FP.rnd (1 / X) ∧ FP.rnd (1 / X) ≤ 1 := by
  obtain ⟨h0, rfl⟩ := (UniformI.new_ok hf).1 h
  obtain ⟨h1, h2, h3⟩ := hf
  have hX := ofInt_is (n := (w:ℤ) + 1) (by rw [abs_of_nonneg (by omega)]; omega)
  push_cast at hX
  have hX2 : (2:ℝ) ≤ FP.rnd ((w:ℝ) + 1) := by
    have hw1 : (1:ℝ) ≤ w := by exact_mod_cast h0
    have := FP.Lawful.rnd_mono (show (2:ℝ) ≤ (w:ℝ) + 1 by linarith)
    have e2 : FP.rnd 2 = 2 := by simpa using rnd_natCast 2 (by norm_num)
    rwa [e2] at this
  have hp0 : (0:ℝ) ≤ 1 / FP.rnd ((w:ℝ) + 1) := by positivity
  have hp1 : (1:ℝ) / FP.rnd ((w:ℝ) + 1) ≤ 1 := by rw [div_le_one (by linarith)]; linarith
  exact ⟨rfl, rfl, h0, _, hX2, rfl, div_is Is.one hX (by linarith) (not_huge_of_le 1 (by norm_num) (by rw [abs_of_nonneg hp0]; simpa using hp1)),
    rnd_nn hp0, rnd_le_1 hp1⟩

/-- C249 discrete uniform: every mass is a probability, as long as the interval and its size fit in i64. Missing: intervals that do not
fit (`C249_uniform_int_violated`). -/
theorem C249_uniform_int_partial (hf : UniformI.Fits lb w) (h : UniformI.new pr lb w = .ok (.ok d)) (k : ℤ) :
    ∃ P, d.pmf pr k = .ok P ∧ InUnit P.unwrap := by
  obtain ⟨e1, e2, h0, X, hX, hX', hp, hp0, hp1⟩ := unif_prob hf h
  obtain ⟨f1, f2, f3⟩ := UniformI.Fits.bounds hf
  unfold UniformI.pmf
  rw [e1, e2, i64chk_ok ⟨by omega, f2⟩, exc_ok_bind]
  by_cases hk : k < lb ∨ lb + (w:ℤ) < k
  · rw [if_pos hk]; exact ⟨_, rfl, 0, Is.zero, le_rfl, zero_le_one⟩
  · rw [if_neg hk]; exact ⟨_, rfl, _, hp, hp0, hp1⟩

/-- C250 discrete uniform: the mass of every point of the interval is `1/(width + 1)` up to a relative error of 2^-51; outside it is 0. -/
theorem C250_uniform_int_pmf (hf : UniformI.Fits lb w) (h : UniformI.new pr lb w = .ok (.ok d)) (k : ℤ) :
    ∃ P y, d.pmf pr k = .ok P ∧ P.unwrap.Is y ∧ |y - uniformPMF lb (lb + w) k| ≤ 1 / 2 ^ 51 * uniformPMF lb (lb + w) k := by
  obtain ⟨e1, e2, h0, X, hX, hX', hp, hp0, hp1⟩ := unif_prob hf h
  obtain ⟨f1, f2, f3⟩ := UniformI.Fits.bounds hf
  unfold UniformI.pmf
  rw [e1, e2, i64chk_ok ⟨by omega, f2⟩, exc_ok_bind]
  by_cases hk : k < lb ∨ lb + (w:ℤ) < k
  · rw [if_pos hk]
    refine ⟨_, 0, rfl, Is.zero, ?_⟩
    unfold uniformPMF
    rw [if_neg (by omega)]; simp
  · rw [if_neg hk]
    refine ⟨_, _, rfl, hp, ?_⟩
    have hu : uniformPMF lb (lb + w) k = 1 / ((w:ℝ) + 1) := by
      unfold uniformPMF
      rw [if_pos (by omega)]; push_cast; congr 1; ring
    rw [hu]
    have hw0 : (0:ℝ) < (w:ℝ) + 1 := by positivity
    have hw63 : (w:ℝ) + 1 ≤ 2 ^ 64 := by
      unfold I64MAX at f3
      have : w + 1 ≤ 2 ^ 64 := by omega
      exact_mod_cast this
    have eX := FP.Lawful.rnd_err ((w:ℝ) + 1)
    have eP := FP.Lawful.rnd_err (1 / X)
    rw [← hX', abs_of_pos hw0] at eX
    have hX0 : 0 < X := by linarith
    rw [abs_of_nonneg (a := 1 / X) (by positivity)] at eP
    have s1 : (1:ℝ) / 2 ^ 1075 ≤ 1 / 2 ^ 900 := one_div_le_one_div_of_le (by positivity) (pow_le_pow_right₀ (by norm_num) (by norm_num))
    have s2 : (1:ℝ) / 2 ^ 900 ≤ 1 / 2 ^ 130 := one_div_le_one_div_of_le (by positivity) (pow_le_pow_right₀ (by norm_num) (by norm_num))
    have s0 : (0:ℝ) < 1 / 2 ^ 1075 := by positivity
    generalize (1:ℝ) / 2 ^ 1075 = η at *
    generalize (1:ℝ) / 2 ^ 900 = η' at *
    generalize hv : (w:ℝ) + 1 = v at *
    have hη : η ≤ 1 / 2 ^ 130 := s1.trans s2
    have hv2 : (2:ℝ) ≤ v := by
      have : (1:ℝ) ≤ w := by exact_mod_cast h0
      linarith
    have hXv : |X - v| ≤ v / 2 ^ 53 + v / 2 ^ 120 := eX.trans (by nlinarith)
    have hX65 : X ≤ 2 ^ 65 := by rw [abs_le] at hXv; linarith [hXv.2]
    have h1X : 1 / 2 ^ 65 ≤ 1 / X := one_div_le_one_div_of_le hX0 hX65
    have hPX : |FP.rnd (1 / X) - 1 / X| ≤ 1 / X * (1 / 2 ^ 53 + 1 / 2 ^ 65) := eP.trans (by
      have : (1:ℝ) / 2 ^ 130 ≤ 1 / X * (1 / 2 ^ 65) := by
        have := mul_le_mul_of_nonneg_right h1X (by norm_num : (0:ℝ) ≤ 1 / 2 ^ 65)
        refine le_trans (le_of_eq ?_) this
        norm_num
      linarith)
    have hinv : |1 / X - 1 / v| ≤ 1 / X * (1 / 2 ^ 53 + 1 / 2 ^ 120) := by
      have : 1 / X - 1 / v = 1 / X * ((v - X) / v) := by field_simp
      rw [this, abs_mul, abs_of_pos (by positivity : 0 < 1 / X)]
      refine mul_le_mul_of_nonneg_left ?_ (by positivity)
      rw [abs_div, abs_of_pos (by linarith : 0 < v), abs_sub_comm, div_le_iff₀ (by linarith)]
      linarith
    rw [abs_le] at *
    have h1 : 1 / X ≤ 1 / v * (1 + 1 / 2 ^ 52) := by
      have : (0:ℝ) < 1 / v := by positivity
      generalize 1 / X = a at *
      generalize 1 / v = b at *
      nlinarith [hinv.2]
    generalize 1 / X = a at *
    have : (0:ℝ) < 1 / v := by positivity
    generalize 1 / v = b at *
    constructor <;> nlinarith [hinv.1, hinv.2, hPX.1, hPX.2]

theorem unif_cdf (hf : UniformI.Fits lb w) (h : UniformI.new pr lb w = .ok (.ok d)) {j k : ℤ} (hjk : j ≤ k)
    (hle : FP.rnd (FP.rnd ((w:ℝ) + 1) * FP.rnd (1 / FP.rnd ((w:ℝ) + 1))) ≤ 1) :
    ∃ P Q, d.cdf pr j = .ok P ∧ d.cdf pr k = .ok Q ∧ InUnit P.unwrap ∧ InUnit Q.unwrap ∧ P.unwrap ≤ Q.unwrap := by
  obtain ⟨e1, e2, h0, X, hX, hX', hp, hp0, hp1⟩ := unif_prob hf h
  obtain ⟨f1, f2, f3⟩ := UniformI.Fits.bounds hf
  have key : ∀ k : ℤ, ∃ P y, d.cdf pr k = .ok P ∧ P.unwrap.Is y ∧ (0 ≤ y ∧ y ≤ 1) ∧
      y = (if k < lb then 0 else if lb + w ≤ k then 1 else FP.rnd (FP.rnd ((k - lb + 1 : ℤ) : ℝ) * FP.rnd (1 / X))) := by
    intro k
    unfold UniformI.cdf
    rw [e1, e2, i64chk_ok ⟨by omega, f2⟩, exc_ok_bind]
    by_cases hk1 : k < lb
    · rw [if_pos hk1, if_pos hk1]; exact ⟨_, _, rfl, Is.zero, ⟨le_rfl, zero_le_one⟩, rfl⟩
    · rw [if_neg hk1, if_neg hk1]
      by_cases hk2 : lb + (w:ℤ) ≤ k
      · rw [if_pos hk2, if_pos hk2]; exact ⟨_, _, rfl, Is.one, ⟨zero_le_one, le_rfl⟩, rfl⟩
      · rw [if_neg hk2, if_neg hk2]
        rw [i64chk_ok (n := k - lb) ⟨by unfold I64MIN; omega, by omega⟩, exc_ok_bind,
          i64chk_ok (n := k - lb + 1) ⟨by unfold I64MIN; omega, by omega⟩, exc_ok_bind]
        have hb := ofInt_is (n := k - lb + 1) (by unfold I64MAX at f3; rw [abs_of_nonneg (by omega)]; omega)
        have b0 : (0:ℝ) ≤ ((k - lb + 1 : ℤ) : ℝ) := by exact_mod_cast (by omega : 0 ≤ k - lb + 1)
        have bX : FP.rnd ((k - lb + 1 : ℤ) : ℝ) ≤ X := by
          rw [hX']
          refine FP.Lawful.rnd_mono ?_
          have : k - lb + 1 ≤ (w:ℤ) + 1 := by omega
          exact_mod_cast this
        have m0 := mul_nonneg (rnd_nn b0) hp0
        have m1 : FP.rnd (FP.rnd ((k - lb + 1 : ℤ) : ℝ) * FP.rnd (1 / X)) ≤ 1 := by
          refine le_trans (FP.Lawful.rnd_mono (mul_le_mul_of_nonneg_right bX hp0)) ?_
          rw [hX']; exact hle
        refine ⟨_, _, rfl, mul_is hb hp (FP.Lawful.not_huge _ ?_), ⟨rnd_nn m0, m1⟩, rfl⟩
        rw [abs_of_nonneg (rnd_nn m0)]
        exact m1.trans (one_le_pow₀ (by norm_num))
  obtain ⟨P, y, p1, p2, p3, p4⟩ := key j
  obtain ⟨Q, z, q1, q2, q3, q4⟩ := key k
  refine ⟨P, Q, p1, q1, ⟨y, p2, p3.1, p3.2⟩, ⟨z, q2, q3.1, q3.2⟩, (p2.le_iff q2).2 ?_⟩
  by_cases hj1 : j < lb
  · rw [if_pos hj1] at p4; rw [p4]; exact q3.1
  · by_cases hk2 : lb + (w:ℤ) ≤ k
    · rw [if_neg (by omega), if_pos hk2] at q4; rw [q4]; exact p3.2
    · rw [if_neg hj1, if_neg (by omega)] at p4
      rw [if_neg (by omega), if_neg hk2] at q4
      rw [p4, q4]
      refine FP.Lawful.rnd_mono (mul_le_mul_of_nonneg_right (FP.Lawful.rnd_mono ?_) hp0)
      exact_mod_cast (by omega : j - lb + 1 ≤ k - lb + 1)

end

section
open B64
attribute [local instance] binary64 binary64_lawful B64.libm B64.specialFns

/-- `x * (1/x)` never rounds above 1 -/
theorem mul_recip_le_one {X : ℝ} (hX : 1 ≤ X) (hX2 : X ≤ 2 ^ 66) : FP.rnd (X * FP.rnd (1 / X)) ≤ 1 := by
  refine rnd_le_one' ?_
  have hX0 : 0 < X := by linarith
  have h1 : (1:ℝ) / 2 ^ 66 ≤ 1 / X := one_div_le_one_div_of_le hX0 hX2
  have h2 : (2:ℝ) ^ (-1022:ℤ) ≤ |1 / X| := by
    rw [abs_of_pos (by positivity)]
    refine le_trans ?_ h1
    rw [zpow_neg, one_div]
    exact inv_anti₀ (by positivity) (by rw [show (1022:ℤ) = ((1022:ℕ):ℤ) by norm_num, zpow_natCast]; exact pow_le_pow_right₀ (by norm_num) (by norm_num))
  have e := rnd_err_normal h2
  rw [abs_of_pos (by positivity : 0 < 1 / X), abs_le] at e
  have : X * B64.rnd (1 / X) ≤ X * (1 / X + 1 / X / 2 ^ 53) := mul_le_mul_of_nonneg_left (by linarith [e.2]) hX0.le
  have e3 : X * (1 / X + 1 / X / 2 ^ 53) = 1 + 1 / 2 ^ 53 := by field_simp
  rw [e3] at this
  exact this

variable {pr : Profile} {lb : ℤ} {w : ℕ} {d : UniformI}

/-- C249, C250 discrete uniform: in binary64 the distribution function returns a probability at every integer and never decreases. -/
theorem C250_uniform_int_cdf (hf : UniformI.Fits lb w) (h : UniformI.new pr lb w = .ok (.ok d)) {j k : ℤ} (hjk : j ≤ k) :
    ∃ P Q, d.cdf pr j = .ok P ∧ d.cdf pr k = .ok Q ∧ InUnit P.unwrap ∧ InUnit Q.unwrap ∧ P.unwrap ≤ Q.unwrap := by
  obtain ⟨-, -, h0, X, hX, hX', -⟩ := unif_prob hf h
  refine unif_cdf hf h hjk ?_
  rw [← hX']
  refine mul_recip_le_one (by linarith) ?_
  rw [hX']
  have hw : (w:ℝ) + 1 ≤ 2 ^ 64 := by
    have := hf.2.2
    exact_mod_cast (by omega : w + 1 ≤ 2 ^ 64)
  have hw0 : (0:ℝ) < (w:ℝ) + 1 := by positivity
  have e := FP.Lawful.rnd_err ((w:ℝ) + 1)
  rw [abs_of_pos hw0, abs_le] at e
  have s1 : (1:ℝ) / 2 ^ 1075 ≤ 1 := by rw [div_le_one (by positivity)]; exact one_le_pow₀ (by norm_num)
  generalize (1:ℝ) / 2 ^ 1075 = η at *
  linarith [e.2]

/-! ### violations -/

theorem rnd_tie_zero : B64.rnd ((1 / 2) ^ 1075) = 0 := by
  have hx : ((1:ℝ) / 2) ^ 1075 = 2 ^ (-1075:ℤ) := by
    rw [zpow_neg, one_div, inv_pow]; congr 1
  have hu : ulpExp ((1 / 2) ^ 1075) = -1074 := by
    unfold ulpExp
    rw [hx, abs_of_pos (by positivity)]
    have : Int.log 2 ((2:ℝ) ^ (-1075:ℤ)) = -1075 := by
      have := Int.log_zpow (R := ℝ) (b := 2) (by norm_num) (-1075)
      exact_mod_cast this
    rw [this]; norm_num
  unfold B64.rnd
  rw [hu]
  have hd : ((1:ℝ) / 2) ^ 1075 / 2 ^ (-1074:ℤ) = 1 / 2 := by
    rw [hx, ← zpow_sub₀ (by norm_num)]; norm_num
  rw [hd]
  have hf : ⌊(1:ℝ) / 2⌋ = 0 := by rw [Int.floor_eq_iff]; constructor <;> norm_num
  have : rne ((1:ℝ) / 2) = 0 := by
    unfold rne
    rw [hf]
    rw [if_neg (by norm_num), if_neg (by norm_num), if_pos (by simp)]
  rw [this]; simp

/-- powers of one half, and zero below the smallest subnormal -/
theorem rnd_half_pow_le (m : ℕ) : B64.rnd ((1 / 2) ^ m) ≤ (1 / 2) ^ m := by
  by_cases hm : m ≤ 1074
  · have := rnd_repr 1 (-(m:ℤ)) (by norm_num) (by omega)
    rw [Int.cast_one, one_mul, zpow_neg, zpow_natCast, ← inv_pow, ← one_div] at this
    rw [this]
  · have h0 : (0:ℝ) < (1 / 2) ^ m := by positivity
    have h1 : ((1:ℝ) / 2) ^ m ≤ (1 / 2) ^ 1075 := pow_le_pow_of_le_one (by norm_num) (by norm_num) (by omega)
    refine le_trans (B64.rnd_mono h1) ?_
    have : B64.rnd ((1 / 2) ^ 1075) = 0 := rnd_tie_zero
    rw [this]; exact h0.le

/-- repeated squaring of a number at most one half underflows -/
theorem powiLoop_small : ∀ (n : ℕ) {a r : F64} {i j : ℕ} {X Y : ℝ}, a.Is X → r.Is Y → 0 ≤ X → X ≤ (1 / 2) ^ i → 0 ≤ Y → Y ≤ (1 / 2) ^ j →
    FP.rnd X = X → FP.rnd Y = Y →
    ∃ Z, (powiLoop a r n).Is Z ∧ 0 ≤ Z ∧ Z ≤ (1 / 2) ^ (j + n * i) ∧ FP.rnd Z = Z := by
  intro n
  induction n using Nat.strong_induction_on with
  | _ n ih =>
    intro a r i j X Y ha hr hX0 hX hY0 hY hXr hYr
    have one : ∀ m : ℕ, ((1:ℝ) / 2) ^ m ≤ 1 := fun m => pow_le_one₀ (by norm_num) (by norm_num)
    have prod : ∀ {b c : F64} {U V : ℝ} {l m : ℕ}, b.Is U → c.Is V → 0 ≤ U → U ≤ (1 / 2) ^ l → 0 ≤ V → V ≤ (1 / 2) ^ m →
        ∃ W, (b * c).Is W ∧ 0 ≤ W ∧ W ≤ (1 / 2) ^ (l + m) ∧ FP.rnd W = W := by
      intro b c U V l m hb hc hU0 hU hV0 hV
      obtain ⟨h1, h2, -⟩ := unit_mul_is hb hc ⟨hU0, hU.trans (one l)⟩ ⟨hV0, hV.trans (one m)⟩
      refine ⟨_, h1, h2, ?_, FP.Lawful.rnd_idem _⟩
      refine le_trans (FP.Lawful.rnd_mono (mul_le_mul hU hV hV0 (by positivity))) ?_
      rw [← pow_add]; exact rnd_half_pow_le (l + m)
    rw [powiLoop]
    by_cases hz : n / 2 = 0
    · rw [dif_pos hz]
      have hn : n = 0 ∨ n = 1 := by omega
      rcases hn with rfl | rfl
      · rw [if_neg (by norm_num)]; exact ⟨Y, hr, hY0, by simpa using hY, hYr⟩
      · rw [if_pos (by norm_num)]
        obtain ⟨W, w1, w2, w3, w4⟩ := prod hr ha hY0 hY hX0 hX
        exact ⟨W, w1, w2, by simpa using w3, w4⟩
    · rw [dif_neg hz]
      obtain ⟨S, s1, s2, s3, s4⟩ := prod ha ha hX0 hX hX0 hX
      by_cases ho : n % 2 = 1
      · rw [if_pos ho]
        obtain ⟨W, w1, w2, w3, w4⟩ := prod hr ha hY0 hY hX0 hX
        obtain ⟨Z, z1, z2, z3, z4⟩ := ih (n / 2) (by omega) s1 w1 s2 s3 w2 w3 s4 w4
        refine ⟨Z, z1, z2, ?_, z4⟩
        have e : j + i + n / 2 * (i + i) = j + n * i := by
          have hnn : n = 2 * (n / 2) + 1 := by omega
          conv_rhs => rw [hnn]
          ring
        rwa [e] at z3
      · rw [if_neg ho]
        obtain ⟨Z, z1, z2, z3, z4⟩ := ih (n / 2) (by omega) s1 hr s2 s3 hY0 hY s4 hYr
        refine ⟨Z, z1, z2, ?_, z4⟩
        have e : j + n / 2 * (i + i) = j + n * i := by
          have hnn : n = 2 * (n / 2) := by omega
          conv_rhs => rw [hnn]
          ring
        rwa [e] at z3

/-- a negative power of a number at most one half is infinite -/
theorem powi_neg_inf {a : F64} {X : ℝ} (ha : a.Is X) (h0 : 0 ≤ X) (h1 : X ≤ 1 / 2) (hr : FP.rnd X = X) {n : ℕ} (hn : 1075 ≤ n) :
    F64.powi a (-(n:ℤ)) = pinf ∨ F64.powi a (-(n:ℤ)) = ninf := by
  unfold F64.powi
  rw [if_pos (by omega), Int.natAbs_neg, Int.natAbs_natCast]
  obtain ⟨Z, z1, z2, z3, z4⟩ := powiLoop_small n (i := 1) (j := 0) ha (Is.fin 1) h0 (by simpa using h1) zero_le_one (by simp) hr F64.rnd_one
  have hZ : Z = 0 := by
    refine le_antisymm ?_ z2
    have h2 : ((1:ℝ) / 2) ^ (0 + n * 1) ≤ (1 / 2) ^ 1075 := pow_le_pow_of_le_one (by norm_num) (by norm_num) (by omega)
    have := FP.Lawful.rnd_mono (z3.trans h2)
    rw [z4] at this
    exact this.trans (le_of_eq rnd_tie_zero)
  subst hZ
  rcases z1 with h | ⟨h, -⟩
  · left; rw [h]; change F64.div (fin 1) (fin 0) = pinf; simp [F64.div, sinf]
  · right; rw [h]; change F64.div (fin 1) negZero = ninf; simp [F64.div, sinf]

theorem not_unit_inf {x : F64} (h : x = pinf ∨ x = ninf) : ¬ InUnit x := by
  rintro ⟨r, hr, -, -⟩
  rcases h with rfl | rfl <;> simp [F64.Is] at hr

theorem fin_mul_inf {a x : F64} {p : ℝ} (ha : a.Is p) (hp : 0 < p) (h : x = pinf ∨ x = ninf) : a * x = pinf ∨ a * x = ninf := by
  have e := ha.eq_fin hp.ne'
  rw [e]
  rcases h with rfl | rfl
  · left; change F64.mul (fin p) pinf = pinf; simp [F64.mul, sinf, hp.le, hp.ne']
  · right; change F64.mul (fin p) ninf = ninf; simp [F64.mul, sinf, hp.le, hp.ne']

theorem half_or_more {a : F64} {p : ℝ} (ha : a.Is p) (h1 : 1 / 2 ≤ p) (h2 : p ≤ 1) :
    (1 - a : F64).Is (FP.rnd (1 - p)) ∧ 0 ≤ FP.rnd (1 - p) ∧ FP.rnd (1 - p) ≤ 1 / 2 ∧ FP.rnd (FP.rnd (1 - p)) = FP.rnd (1 - p) := by
  obtain ⟨q1, q2, -⟩ := inUnit_sub ha (by linarith) h2
  refine ⟨q1, q2.1, ?_, FP.Lawful.rnd_idem _⟩
  have e : FP.rnd ((1:ℝ) / 2) = 1 / 2 := by simpa using FP.Lawful.rnd_dyadic 1 1 (by norm_num) (by norm_num)
  have := FP.Lawful.rnd_mono (show 1 - p ≤ 1 / 2 by linarith)
  rwa [e] at this

/-- C249 is violated by the geometric law: for every success probability of at least 1/2 and every `k` with 2^31 ≤ k ≤ 2^32 - 1075 the mass
is infinite. -/
theorem C249_geometric_violated {a : F64} {p : ℝ} {d : Geometric} (h : Geometric.new a = .ok d) (ha : a.Is p) (hp : 1 / 2 ≤ p) {k : ℕ}
    (hk1 : 2 ^ 31 ≤ k) (hk2 : k ≤ 2 ^ 32 - 1075) : ((d.pmf k).unwrap = pinf ∨ (d.pmf k).unwrap = ninf) ∧ ¬ InUnit (d.pmf k).unwrap := by
  obtain ⟨h0, rfl⟩ := Geometric.new_ok.1 h
  have p1 := (ha.le_iff Is.one).1 h0.2
  obtain ⟨q1, q2, q3, q4⟩ := half_or_more ha hp p1
  have := fin_mul_inf ha (by linarith) (powi_neg_inf q1 q2 q3 q4 (n := 2 ^ 32 - k) (by omega))
  have e : (Geometric.pmf ⟨⟨a⟩, ⟨1 - a⟩⟩ k).unwrap = a * F64.powi (1 - a) (-((2 ^ 32 - k : ℕ) : ℤ)) := by
    unfold Geometric.pmf Probability.newUnchecked Probability.unwrap Probability.powi
    rw [geom_wrap_big hk1 (by omega)]
  rw [e]
  exact ⟨this, not_unit_inf this⟩

/-- C249 is violated by the binomial law: with 2^31 ≤ n ≤ 2^32 - 1075 trials and a success probability of at least 1/2, the mass of 0
is infinite. -/
theorem C249_binomial_violated {n : ℕ} {P : Probability} {p : ℝ} {d : Binomial} (h : Binomial.new n P = .ok d) (hp : P.val.Is p) (hp2 : 1 / 2 ≤ p)
    (hn1 : 2 ^ 31 ≤ n) (hn2 : n ≤ 2 ^ 32 - 1075) (pr : Profile) :
    ∃ R, d.pmf pr 0 = .ok R ∧ (R.unwrap = pinf ∨ R.unwrap = ninf) ∧ ¬ InUnit R.unwrap := by
  obtain ⟨h0, rfl⟩ := Binomial.new_ok.1 h
  have p1 := (hp.le_iff Is.one).1 h0.2
  obtain ⟨q1, q2, q3, q4⟩ := half_or_more hp hp2 p1
  have hI := powi_neg_inf q1 q2 q3 q4 (n := 2 ^ 32 - n) (by omega)
  have e0 : F64.powi P.val 0 = fin 1 := by
    unfold F64.powi
    rw [if_neg (by omega), Int.natAbs_zero, powiLoop, dif_pos (by norm_num), if_neg (by norm_num)]
  have hJ := fin_mul_inf (Is.fin 1) one_pos hI
  have e1 : F64.ofNat (n.choose 0) = fin 1 := by
    obtain ⟨r, hr, h1⟩ := ofNat_pos (n := 1) (by norm_num) one_pos
    rw [Nat.choose_zero_right]
    unfold F64.ofNat
    rw [Nat.cast_one]; exact F64.round_one
  have hK := fin_mul_inf (Is.fin 1) one_pos hJ
  refine ⟨⟨fin 1 * (fin 1 * F64.powi (1 - P.val) (-((2 ^ 32 - n : ℕ) : ℤ)))⟩, ?_, hK, not_unit_inf hK⟩
  unfold Binomial.pmf
  rw [choose_eq_core pr n 0 (by unfold U64; omega) (by omega) (by simp), usub_ok (Nat.zero_le n)]
  have hw : i32wrap ((n - 0 : ℕ) : ℤ) = -((2 ^ 32 - n : ℕ) : ℤ) := by unfold i32wrap; omega
  simp only [exc_ok_bind]
  rw [hw, e1]
  unfold Probability.newUnchecked Probability.powi Probability.not
  rw [i32wrap_small (by simp) (by norm_num), Nat.cast_zero, e0]
  rfl

end
end Rstat
