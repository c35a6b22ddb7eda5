import Verif.Props.FloatDerived
import Verif.Props.FloatDensity3
import Verif.Props.FloatAccuracy7
import Verif.Props.Dist.Uniform
import Verif.Props.Dist.Gumbel

/-! C274: small probabilities. Which distribution functions keep their relative accuracy in the lower tail, and which lose it. -/
set_option linter.unusedSectionVars false
namespace Rstat
open F64 Spec Consts

/-- the floating-point distribution function `F` is within relative error `ε` of the (positive) real one at every f64 argument in `S` -/
def Spec.RelativeCDF (F : F64 → Probability) (G : ℝ → ℝ) (S : Set ℝ) (ε : ℝ) : Prop :=
  ∀ (x : F64) (r : ℝ), x.Is r → r ∈ S → 0 < G r ∧ RelClose (F x).val (G r) ε

section
variable [FP] [FP.Lawful] [FP.Libm] [FP.Accurate] {a b c : F64} {s t m l w : ℝ}

theorem Rel.relc {k n : ℕ} (h : Rel a t k n) (t0 : 0 < t) {ε : ℝ} (hn : (n:ℝ) / 2 ^ 52 ≤ ε) : 0 < t ∧ RelClose a t ε := by
  obtain ⟨_, _, y, hy, he⟩ := h
  exact ⟨t0, y, hy, he.trans (by gcongr)⟩

/-- C274 (part): an accurate distribution function keeps some relative accuracy down to probabilities of `2^-k` -/
theorem C274_partial {F : F64 → Probability} {G : ℝ → ℝ} {S : Set ℝ} {ε : ℝ} (k : ℕ) (h : AccurateCDF F G S ε) (x : F64) (r : ℝ)
    (fx : IsF64 x) (hx : x.Is r) (hr : r ∈ S) (hG : 1 / 2 ^ k ≤ G r) : RelClose (F x).val (G r) (ε * 2 ^ k) := by
  obtain ⟨p, hp, he⟩ := h x r fx hx hr
  have e0 : 0 ≤ ε := (abs_nonneg _).trans he
  have g0 : 0 < G r := pow_inv_pos hG
  refine ⟨p, hp, he.trans ?_⟩
  rw [abs_of_pos g0]
  have : ε * 2 ^ k * (1 / 2 ^ k) ≤ ε * 2 ^ k * G r := by gcongr
  refine le_trans (le_of_eq ?_) this
  field_simp

/-- the standardised argument `(x - mu)/s` -/
theorem rel_z {x : F64} {r : ℝ} (hx : x.Is r) (ha : a.Is m) (hb : b.Is s) (hs : Ordinary s) (h : Ordinary |r - m|) :
    Rel ((x - a) / b) ((r - m) / s) 120 2 :=
  (Rel.sub (k := 60) hx ha h.1 h.2 (by norm_num)).div (Rel.ord hb hs) (by norm_num) (by norm_num)

/-- C274 (logistic): probabilities as small as `exp(-64)` come out to a relative `2^-43` -/
theorem C274_logistic {d : Logistic} (h : Logistic.new a b = .ok d) (ha : a.Is m) (hb : b.Is s) (hs : Ordinary s) :
    RelativeCDF d.cdf (logisticCDF m s) {x | Ordinary |x - m| ∧ |(x - m) / s| ≤ 64} (1 / 2 ^ 43) := by
  obtain ⟨_, rfl⟩ := Logistic.new_ok.1 h
  intro x r hx ⟨r1, r2⟩
  unfold Logistic.cdf Logistic.z logisticCDF Probability.newUnchecked; dsimp only
  have z := (rel_z hx ha hb hs r1).neg
  have e := z.exp 64 (by rw [abs_neg]; exact_mod_cast r2) (by norm_num) (by norm_num)
  have p := Real.exp_pos (-((r - m) / s))
  have o : Rel (1 : F64) (1:ℝ) 128 (2 * (64 * 2) + 3) := Rel.one.mono (by norm_num) (by norm_num)
  have q := o.add e one_pos p (by norm_num) (by norm_num)
  have q2 := Rel.one.div q (by norm_num) (by norm_num)
  rw [neg_div]
  exact q2.relc (by positivity) (by norm_num)

/-- C274 (Gumbel): probabilities as small as `exp(-64)` come out to a relative `2^-36` -/
theorem C274_gumbel {d : Gumbel} (h : Gumbel.new a b = .ok d) (ha : a.Is m) (hb : b.Is s) (hs : Ordinary s) :
    RelativeCDF d.cdf (gumbelCDF m s) {x | Ordinary |x - m| ∧ |(x - m) / s| ≤ 64 ∧ Real.exp (-((x - m) / s)) ≤ 64} (1 / 2 ^ 36) := by
  obtain ⟨_, rfl⟩ := Gumbel.new_ok.1 h
  intro x r hx ⟨r1, r2, r3⟩
  unfold Gumbel.cdf Gumbel.z gumbelCDF Probability.newUnchecked; dsimp only
  have z := (rel_z hx ha hb hs r1).neg
  have e := z.exp 64 (by rw [abs_neg]; exact_mod_cast r2) (by norm_num) (by norm_num)
  have p := Real.exp_pos (-((r - m) / s))
  have e2 := e.neg.exp 64 (by rw [abs_neg, abs_of_pos p]; exact_mod_cast r3) (by norm_num) (by norm_num)
  rw [neg_div]
  exact e2.relc (by positivity) (by norm_num)

/-- C274 (Frechet): probabilities as small as `exp(-64)` come out to a relative `2^-42` -/
theorem C274_frechet {d : Frechet} (h : Frechet.new a = .ok d) (ha : a.Is s) (hs : Ordinary s) (hs2 : s ≤ 64) :
    RelativeCDF d.cdf (frechetCDF s) {x | Ordinary x ∧ |s * Real.log x| ≤ 64 ∧ x ^ (-s) ≤ 64} (1 / 2 ^ 42) := by
  obtain ⟨_, rfl⟩ := Frechet.new_ok.1 h
  intro x r hx ⟨r2, r4, r5⟩
  have s0 := hs.pos; have r0 := r2.pos
  unfold Frechet.cdf frechetCDF Probability.newUnchecked; dsimp only
  rw [if_neg (not_le.2 r0)]
  have p2 := (Rel.ord hx r2).powf 64 64 (Rel.ord ha hs).neg r0 (by rw [neg_mul, abs_neg]; exact_mod_cast r4)
    (by rw [abs_neg, abs_of_pos s0]; push_cast; linarith) (by norm_num) (by norm_num) (by norm_num) (by norm_num)
  have pp : 0 < r ^ (-s) := Real.rpow_pos_of_pos r0 _
  have e := p2.neg.exp 64 (by rw [abs_neg, abs_of_pos pp]; exact_mod_cast r5) (by norm_num) (by norm_num)
  exact e.relc (by positivity) (by norm_num)

/-- C274 (uniform): the probability of a short interval at the lower end comes out to a relative `2^-49`, however short it is -/
theorem C274_uniform {d : UniformF} (h : UniformF.new a b = .ok d) (ha : a.Is l) (hb : b.Is w) (hw : Ordinary w) (hl : |l| ≤ 2 ^ 40 * w) :
    RelativeCDF d.cdf (uniformCDF l (l + w)) {x | Ordinary (x - l) ∧ x ≤ l + w / 2} (1 / 2 ^ 49) := by
  obtain ⟨_, rfl⟩ := UniformF.new_ok.1 h
  intro x r hx ⟨r1, r2⟩
  have w0 := hw.pos; have r0 := r1.pos
  obtain ⟨W, W2⟩ := hw
  have g : ¬ (a + b) ≤ x := by
    intro g
    have e := add_ext ha hb
    have err := FP.Lawful.rnd_err (l + w)
    have M : |l + w| ≤ (2 ^ 40 + 1) * w := by
      have := abs_add_le l w
      rw [abs_of_pos w0] at this; linarith
    have hh : ¬ FP.huge (FP.rnd (l + w)) := Within.huge_ok M (by
      norm_num at W2 ⊢; nlinarith)
    have i := Is.of_ext (round_is hh) e.symm
    have h1 := (i.le_iff hx).1 g
    have h2 := (abs_le.1 err).1
    have t1 : |l + w| / 2 ^ 53 ≤ (2 ^ 40 + 1) * w / 2 ^ 53 := by gcongr
    have t2 := Within.tiny
    have t3 : (1:ℝ) / 2 ^ 120 ≤ 1 / 2 ^ 60 * (1 / 2 ^ 60) := by norm_num
    norm_num at t1 t3 W
    generalize (1:ℝ) / 2 ^ 1075 = T at *
    norm_num at t2 h2
    linarith
  unfold UniformF.cdf uniformCDF Probability.newUnchecked; dsimp only
  rw [if_neg (fun q => absurd ((hx.lt_iff ha).1 q) (by linarith)), if_neg g, if_neg (by linarith), if_neg (by linarith)]
  have k := (Rel.sub_ord hx ha r1).mul (Rel.one.div (Rel.ord hb ⟨W, W2⟩) (by norm_num) (by norm_num)) (by norm_num) (by norm_num)
  rw [show (r - l) / (l + w - l) = (r - l) * (1 / w) by rw [add_sub_cancel_left, mul_one_div]]
  exact k.relc (by positivity) (by norm_num)

end

section
open B64
attribute [local instance] binary64 binary64_lawful B64.libm B64.specialFns B64.accurate

/-- the exponential of anything between `-2^-55` and zero is 1 -/
theorem exp_near {z : F64} {Z : ℝ} (hz : z.Is Z) (h1 : -(1 / 2 ^ 55) ≤ Z) (h2 : Z ≤ 0) : z.exp = fin 1 := by
  rw [exp_fin hz]
  have e : FP.fexp Z = Real.exp Z := rfl
  have e1 : Real.exp Z ≤ 1 := Real.exp_le_one_iff.2 h2
  have e2 := Real.add_one_le_exp Z
  have r : rnd (Real.exp Z) = 1 := by
    have := rnd_one_sub (p := 1 - Real.exp Z) (by linarith) (by linarith)
    rwa [sub_sub_cancel] at this
  rw [e, round_val r one1024 one_ne_zero]

/-- a product or quotient of magnitude at most `2^-55`, negated -/
theorem small_neg {z : F64} {t : ℝ} (e : z.ext = (F64.round (-t)).ext) (t0 : 0 ≤ t) (t1 : t ≤ 1 / 2 ^ 55) :
    ∃ Z, z.Is Z ∧ -(1 / 2 ^ 55) ≤ Z ∧ Z ≤ 0 := by
  have k : FP.rnd (1 / 2 ^ 55 : ℝ) = 1 / 2 ^ 55 := (isF64_pow_inv 55 (by norm_num) _ (Is.fin _)).1
  have h1 : FP.rnd (-(1 / 2 ^ 55 : ℝ)) ≤ FP.rnd (-t) := FP.Lawful.rnd_mono (by linarith)
  have h2 : FP.rnd (-t) ≤ FP.rnd 0 := FP.Lawful.rnd_mono (by linarith)
  rw [FP.Lawful.rnd_neg, k] at h1
  rw [F64.rnd_zero] at h2
  have hh : ¬ FP.huge (FP.rnd (-t)) := by
    apply FP.Lawful.not_huge
    have : |FP.rnd (-t)| ≤ 1 := abs_le.2 ⟨by norm_num at h1 ⊢; linarith, by linarith⟩
    exact this.trans (one_le_pow₀ (by norm_num))
  exact ⟨_, Is.of_ext (round_is hh) e.symm, h1, h2⟩

/-- C274 in binary64: the exponential distribution function returns exactly zero for every positive `x` with `λ·x ≤ 2^-55`, although
the probability `1 - exp(-λ·x)` is positive (about `λ·x`): `1 - exp(…)` cancels, where `-exp_m1(…)` would not -/
theorem C274_exponential_violated {a x : F64} {l r : ℝ} {d : Exponential} (h : Exponential.new a = .ok d) (ha : a.Is l) (hx : x.Is r)
    (hr : 0 < r) (ht : l * r ≤ 1 / 2 ^ 55) :
    (d.cdf x).val.Is 0 ∧ 0 < expCDF l r ∧ ¬ RelClose (d.cdf x).val (expCDF l r) (1 / 2) := by
  obtain ⟨h0, rfl⟩ := Exponential.new_ok.1 h
  have hl := pos_of_lt h0 ha
  have e := mul_fin_ext ha.neg hx
  rw [neg_mul] at e
  obtain ⟨Z, hZ, z1, z2⟩ := small_neg e (by positivity) ht
  have c : ((Exponential.cdf ⟨a⟩ x).val).Is 0 := by
    unfold Exponential.cdf Probability.newUnchecked; dsimp only
    rw [exp_near hZ z1 z2]
    exact Or.inl (sub_self_fin one_ne_zero)
  have p : 0 < expCDF l r := by
    unfold expCDF
    rw [if_neg (not_le.2 hr), sub_pos, Real.exp_lt_one_iff]
    nlinarith
  exact ⟨c, p, not_close_zero c p⟩

/-- C274 in binary64: the same for the Weibull distribution function of any shape `k ≥ 1` wherever `x/λ` is between `2^-900` and `2^-57` -/
theorem C274_weibull_violated {a b x : F64} {l k r : ℝ} {d : Weibull} (h : Weibull.new a b = .ok d) (ha : a.Is l) (hb : b.Is k) (hx : x.Is r)
    (hk : 1 ≤ k) (h1 : 1 / 2 ^ 900 ≤ r / l) (h2 : r / l ≤ 1 / 2 ^ 57) :
    (d.cdf x).val.Is 0 ∧ 0 < weibullCDF l k r ∧ ¬ RelClose (d.cdf x).val (weibullCDF l k r) (1 / 2) := by
  obtain ⟨ha0, -, rfl⟩ := Weibull.new_ok.1 h
  have l0 := pos_of_lt ha0 ha
  have q0 : 0 < r / l := pow_inv_pos h1
  have r0 : 0 < r := by have := mul_pos q0 l0; rwa [div_mul_cancel₀ _ l0.ne'] at this
  obtain ⟨Q, hQ, hQe⟩ : ∃ Q, (x / a).Is Q ∧ |Q - r / l| ≤ (1 : ℕ) / 2 ^ 52 * |r / l| := by
    obtain ⟨R, hR, hRe⟩ := Rel.round (n := 0) (k := 900) (y := r / l) (t := r / l) (by rw [abs_of_pos q0]; exact h1)
      (by rw [abs_of_pos q0]; exact h2.trans (le_trans (by norm_num) (one_le_pow₀ (by norm_num)))) le_rfl (by norm_num)
      (by rw [sub_self, abs_zero]; positivity)
    exact ⟨R, Is.of_ext hR (div_fin_ext hx ha l0.ne').symm, hRe⟩
  rw [abs_of_pos q0] at hQe
  obtain ⟨b1, b2⟩ := abs_le.1 hQe
  push_cast at b1 b2
  have Q0 : 0 < Q := by nlinarith
  have Q1 : Q ≤ 1 / 2 ^ 56 := by norm_num at b2 h2 ⊢; nlinarith
  have P1 : Q ^ k ≤ 1 / 2 ^ 56 := by
    have := Real.rpow_le_rpow_of_exponent_ge Q0 (Q1.trans (by norm_num)) hk
    rw [Real.rpow_one] at this
    exact this.trans Q1
  have c : ((Weibull.cdf ⟨a, b⟩ x).val).Is 0 := by
    unfold Weibull.cdf Probability.newUnchecked
    rw [if_pos (show (0 : F64) ≤ x from (Is.fin (0:ℝ)).le_iff hx |>.2 r0.le)]
    dsimp only
    rcases pow_at hQ hb Q0 (by positivity) with ⟨P, hP, P0, hPe⟩ | ⟨-, hbig⟩
    · have := (abs_le.1 hPe).2
      rw [exp_near hP.neg (by norm_num at this P1 ⊢; linarith) (by linarith)]
      exact Or.inl (sub_self_fin one_ne_zero)
    · exfalso
      have : (1:ℝ) ≤ 2 ^ 1021 := one_le_pow₀ (by norm_num)
      norm_num at P1
      generalize (2:ℝ) ^ 1021 = B at *
      linarith
  have p : 0 < weibullCDF l k r := by
    unfold weibullCDF
    have := Real.rpow_pos_of_pos q0 k
    rw [if_neg (not_le.2 r0), sub_pos, Real.exp_lt_one_iff]
    linarith
  exact ⟨c, p, not_close_zero c p⟩

/-- C274 in binary64: the same for the generalised Pareto distribution function wherever `ζ·(x - μ)/σ` is at most `2^-56` -/
theorem C274_gpd_violated {a b c x : F64} {m s ζ r : ℝ} {d : GeneralisedPareto} (h : GeneralisedPareto.new a b c = .ok d) (ha : a.Is m)
    (hb : b.Is s) (hc : c.Is ζ) (hx : x.Is r) (hs : Ordinary s) (hz : Ordinary ζ) (hr : Ordinary (r - m)) (ht : ζ * ((r - m) / s) ≤ 1 / 2 ^ 56) :
    (d.cdf x).val.Is 0 ∧ 0 < gpdCDF m s ζ r ∧ ¬ RelClose (d.cdf x).val (gpdCDF m s ζ r) (1 / 2) := by
  obtain ⟨-, -, rfl⟩ := GeneralisedPareto.new_ok.1 h
  have s0 := hs.pos; have z0 := hz.pos; have r0 := hr.pos
  have t0 : 0 < ζ * ((r - m) / s) := by positivity
  obtain ⟨-, -, y, hy, hye⟩ := (Rel.ord hc hz).mul (rel_z hx ha hb hs (by rwa [abs_of_pos r0])) (by norm_num) (by norm_num)
  rw [abs_of_pos t0] at hye
  obtain ⟨b1, b2⟩ := abs_le.1 hye
  norm_num at b1 b2
  have y0 : 0 ≤ y := by nlinarith
  have y1 : y ≤ 1 / 2 ^ 54 := by norm_num at ht ⊢; nlinarith
  have k : (1 : F64) + c * ((x - a) / b) = fin 1 := by
    have := add_ext Is.one hy
    rw [round_val (rnd_one_add y0 y1) one1024 one_ne_zero] at this
    rcases Is.of_ext (Is.fin 1) this.symm with this | ⟨-, this⟩
    · exact this
    · norm_num at this
  have cc : ((GeneralisedPareto.cdf ⟨a, b, c⟩ x).val).Is 0 := by
    unfold GeneralisedPareto.cdf Probability.newUnchecked; dsimp only
    rw [k, show (fin 1 : F64) = 1 from rfl, powf_one]
    exact Or.inl (sub_self_fin one_ne_zero)
  have p : 0 < gpdCDF m s ζ r := by
    unfold gpdCDF
    rw [if_neg (by linarith), sub_pos]
    exact Real.rpow_lt_one_of_one_lt_of_neg (by linarith) (div_neg_of_neg_of_pos (by norm_num) z0)
  exact ⟨cc, p, not_close_zero cc p⟩

/-- C274 in binary64: the same for the Kumaraswamy distribution function wherever `x^a` is at most `2^-56` -/
theorem C274_kumaraswamy_violated {a b x : F64} {s t r : ℝ} {d : Kumaraswamy} (h : Kumaraswamy.new a b = .ok d) (ha : a.Is s) (hb : b.Is t)
    (hx : x.Is r) (r0 : 0 < r) (r1 : r < 1) (hp : r ^ s ≤ 1 / 2 ^ 56) :
    (d.cdf x).val.Is 0 ∧ 0 < kumaraswamyCDF s t r ∧ ¬ RelClose (d.cdf x).val (kumaraswamyCDF s t r) (1 / 2) := by
  obtain ⟨a0, b0, rfl⟩ := Kumaraswamy.new_ok.1 h
  have s0 := pos_of_lt a0 ha
  have t0 := pos_of_lt b0 hb
  have pp : 0 < r ^ s := Real.rpow_pos_of_pos r0 s
  have k : (1 : F64) - x.powf a = fin 1 := by
    rcases pow_at hx ha r0 s0.ne' with ⟨P, hP, P0, hPe⟩ | ⟨-, hbig⟩
    · have := (abs_le.1 hPe).2
      exact one_sub_absorb hP P0 (by norm_num at this hp ⊢; linarith)
    · exfalso
      have : (1:ℝ) ≤ 2 ^ 1021 := one_le_pow₀ (by norm_num)
      norm_num at hp
      generalize (2:ℝ) ^ 1021 = B at *
      linarith
  have cc : ((Kumaraswamy.cdf ⟨a, b⟩ x).val).Is 0 := by
    unfold Kumaraswamy.cdf Probability.newUnchecked; dsimp only
    rw [k, show (fin 1 : F64) = 1 from rfl, powf_one]
    exact Or.inl (sub_self_fin one_ne_zero)
  have p : 0 < kumaraswamyCDF s t r := by
    unfold kumaraswamyCDF
    rw [if_neg (by linarith), if_neg (by linarith), sub_pos]
    refine Real.rpow_lt_one ?_ (by linarith) t0
    have := Real.rpow_lt_one r0.le r1 s0
    linarith
  exact ⟨cc, p, not_close_zero cc p⟩

/-- the full claim: every accurate distribution function keeps its relative accuracy where the probability is an ordinary number -/
def C274_full : Prop := ∀ (a : F64) (l : ℝ) (d : Exponential), Exponential.new a = .ok d → a.Is l → Ordinary l →
  RelativeCDF d.cdf (expCDF l) {x | Ordinary x} (1 / 2)

/-- C274: the full claim fails in binary64 -/
theorem C274_violated : ¬ C274_full := by
  intro H
  have hd : Exponential.new (fin 1) = .ok ⟨fin 1⟩ := Exponential.new_ok.2 ⟨lt_of_pos (by norm_num) (.fin _), rfl⟩
  exact (C274_exponential_violated hd (.fin 1) (.fin (1 / 2 ^ 58)) (by positivity) (by norm_num)).2.2
    (H _ _ _ hd (.fin 1) (by unfold Ordinary; norm_num) _ _ (.fin (1 / 2 ^ 58)) (by
      change Ordinary _; unfold Ordinary; norm_num)).2

/-! ### the hypotheses are met -/
example : ∃ d, Logistic.new 0 (fin 1) = .ok d ∧ RelClose (d.cdf (fin (-50))).val (logisticCDF 0 1 (-50)) (1 / 2 ^ 43) := by
  obtain ⟨d, hd⟩ : ∃ d, Logistic.new 0 (fin 1) = .ok d := ⟨_, Logistic.new_ok.2 ⟨lt_of_pos (by norm_num) (.fin _), rfl⟩⟩
  exact ⟨d, hd, (C274_logistic hd Is.zero (.fin 1) (by unfold Ordinary; norm_num) _ _ (.fin (-50)) (by
    change Ordinary _ ∧ _; unfold Ordinary; norm_num)).2⟩
example : ∃ d, UniformF.new 0 (fin 1) = .ok d ∧ RelClose (d.cdf (fin (1 / 2 ^ 50))).val (uniformCDF 0 (0 + 1) (1 / 2 ^ 50)) (1 / 2 ^ 49) := by
  obtain ⟨d, hd⟩ : ∃ d, UniformF.new 0 (fin 1) = .ok d := ⟨_, UniformF.new_ok.2 ⟨lt_of_pos (by norm_num) (.fin _), rfl⟩⟩
  exact ⟨d, hd, (C274_uniform hd Is.zero (.fin 1) (by unfold Ordinary; norm_num) (by norm_num) _ _ (.fin (1 / 2 ^ 50)) (by
    change Ordinary _ ∧ _; unfold Ordinary; norm_num)).2⟩
example : ∃ d, Frechet.new (fin 1) = .ok d ∧ RelClose (d.cdf (fin (1 / 32))).val (frechetCDF 1 (1 / 32)) (1 / 2 ^ 42) := by
  obtain ⟨d, hd⟩ : ∃ d, Frechet.new (fin 1) = .ok d := ⟨_, Frechet.new_ok.2 ⟨lt_of_pos (by norm_num) (.fin _), rfl⟩⟩
  refine ⟨d, hd, (C274_frechet hd (.fin 1) (by unfold Ordinary; norm_num) (by norm_num) _ _ (.fin (1 / 32)) ?_).2⟩
  change Ordinary _ ∧ _ ∧ _
  refine ⟨by unfold Ordinary; norm_num, ?_, by rw [Real.rpow_neg_one]; norm_num⟩
  have l2 := Real.log_two_lt_d9
  have l0 := Real.log_pos one_lt_two
  rw [one_mul, show (1:ℝ) / 32 = (2 ^ 5)⁻¹ by norm_num, Real.log_inv, Real.log_pow, abs_neg, abs_of_pos (by push_cast; linarith)]
  push_cast; linarith
example : ∃ d, Gumbel.new 0 (fin 1) = .ok d ∧ RelClose (d.cdf (fin (-2))).val (gumbelCDF 0 1 (-2)) (1 / 2 ^ 36) := by
  obtain ⟨d, hd⟩ : ∃ d, Gumbel.new 0 (fin 1) = .ok d := ⟨_, Gumbel.new_ok.2 ⟨lt_of_pos (by norm_num) (.fin _), rfl⟩⟩
  refine ⟨d, hd, (C274_gumbel hd Is.zero (.fin 1) (by unfold Ordinary; norm_num) _ _ (.fin (-2)) ?_).2⟩
  change Ordinary _ ∧ _ ∧ _
  refine ⟨by unfold Ordinary; norm_num, by norm_num, ?_⟩
  have h1 := Real.exp_one_lt_d9
  have h2 : Real.exp 2 = Real.exp 1 ^ 2 := by rw [← Real.exp_nat_mul]; norm_num
  norm_num
  have := Real.exp_pos 1
  rw [h2]; nlinarith
example : ∃ d, GeneralisedPareto.new 0 (fin 1) (fin 1) = .ok d ∧ (d.cdf (fin (1 / 2 ^ 57))).val.Is 0 := by
  obtain ⟨d, hd⟩ : ∃ d, GeneralisedPareto.new 0 (fin 1) (fin 1) = .ok d :=
    ⟨_, GeneralisedPareto.new_ok.2 ⟨lt_of_pos (by norm_num) (.fin _), lt_of_pos (by norm_num) (.fin _), rfl⟩⟩
  exact ⟨d, hd, (C274_gpd_violated hd Is.zero (.fin 1) (.fin 1) (.fin (1 / 2 ^ 57)) (by unfold Ordinary; norm_num) (by unfold Ordinary; norm_num)
    (by unfold Ordinary; norm_num) (by norm_num)).1⟩
example : ∃ d, Kumaraswamy.new (fin 1) (fin 2) = .ok d ∧ (d.cdf (fin (1 / 2 ^ 57))).val.Is 0 := by
  obtain ⟨d, hd⟩ : ∃ d, Kumaraswamy.new (fin 1) (fin 2) = .ok d :=
    ⟨_, Kumaraswamy.new_ok.2 ⟨lt_of_pos (by norm_num) (.fin _), lt_of_pos (by norm_num) (.fin _), rfl⟩⟩
  exact ⟨d, hd, (C274_kumaraswamy_violated hd (.fin 1) (.fin 2) (.fin (1 / 2 ^ 57)) (by positivity) (by norm_num) (by rw [Real.rpow_one]; norm_num)).1⟩
example : ∃ d, Weibull.new (fin 1) (fin 2) = .ok d ∧ (d.cdf (fin (1 / 2 ^ 60))).val.Is 0 := by
  obtain ⟨d, hd⟩ : ∃ d, Weibull.new (fin 1) (fin 2) = .ok d :=
    ⟨_, Weibull.new_ok.2 ⟨lt_of_pos (by norm_num) (.fin _), lt_of_pos (by norm_num) (.fin _), rfl⟩⟩
  refine ⟨d, hd, (C274_weibull_violated hd (.fin 1) (.fin 2) (.fin (1 / 2 ^ 60)) (by norm_num) ?_ (by norm_num)).1⟩
  rw [div_one]
  exact one_div_le_one_div_of_le (by positivity) (pow_le_pow_right₀ (by norm_num) (by norm_num))

end
end Rstat
