import Verif.Spec.Links
import Verif.Props.Dist.Binomial
import Verif.Props.Dist.Bernoulli
import Verif.Props.Dist.BetaBinomial
import Verif.Props.Dist.Categorical
import Verif.Props.Dist.Uniform
import Verif.Props.Multinomial

/-! Property C242: discrete families that name the same law return the same numbers. -/
set_option linter.unusedSectionVars false
namespace Rstat
open F64 Consts Spec

section
variable [FP] [FP.Exact]

/-- C242: `Binomial(1, p)` and `Bernoulli(p)` have the same mass function, mean and variance, and (0 < p < 1) the same skewness,
kurtosis, excess kurtosis and Fisher information. -/
theorem C242_binomial_bernoulli_partial {a : F64} {p : ℝ} {b : Bernoulli} {d : Binomial} (hb : Bernoulli.new a = .ok b)
    (hd : Binomial.new 1 ⟨a⟩ = .ok d) (ha : a.Is p) :
    (∀ pr (k : Bool), ∃ r, d.pmf pr k.toNat = .ok r ∧ SameVal r.val (b.pmf k).val) ∧
    SameVal d.mean b.mean ∧ SameVal d.variance b.variance ∧
    (0 < p → p < 1 → SameVal d.skewness b.skewness ∧ SameVal d.kurtosis b.kurtosis ∧ SameVal d.excessKurtosis b.excessKurtosis ∧
      SameVal d.fisherInformation b.fisherInformation) := by
  obtain ⟨⟨h0, h1⟩, hpm, -, -, -, -⟩ := C85_bernoulli hb ha
  have hP : (Probability.mk a).val.Is p := ha
  have hpb := fun pr k hk => C88_binomial_62 hd hP (by norm_num) pr k hk
  obtain ⟨-, rfl⟩ := Binomial.new_ok.1 hd
  obtain ⟨-, rfl⟩ := Bernoulli.new_ok.1 hb
  have hq : (Probability.not ⟨a⟩).val.Is (1 - p) := Is.one.sub ha
  have one : (F64.ofNat 1).Is 1 := (Is.ofNat 1).congr (by norm_num)
  have hv : (a * (Probability.not ⟨a⟩).val * F64.ofNat 1).Is (p * (1 - p)) := ((ha.mul hq).mul one).congr (by ring)
  have hv' : (a * (1 - a)).Is (p * (1 - p)) := ha.mul (Is.one.sub ha)
  refine ⟨fun pr k => ?_, ⟨_, ha.mul one, ha.congr (by ring)⟩, ⟨_, hv, hv'⟩, fun p0 p1 => ?_⟩
  · obtain ⟨r, hr, hv⟩ := hpb pr k.toNat (by cases k <;> simp)
    refine ⟨r, hr, _, hv, (hpm k).1.congr ?_⟩
    cases k <;> simp [bernPMF, binPMF]
  · have w : 0 < p * (1 - p) := mul_pos p0 (by linarith)
    have q0 : 1 - p ≠ 0 := by linarith
    have sv := hv.sqrt w.le
    have sv' := hv'.sqrt w.le
    have k1 : (Binomial.kurtosis ⟨1, ⟨a⟩, Probability.not ⟨a⟩⟩).Is (1 / (p * (1 - p)) - 6) := by
      refine ((Is.one.sub (((Is.num 6).mul ha).mul hq)).div ((one.mul ha).mul hq) (by rw [one_mul]; exact w.ne')).congr ?_
      field_simp
    have k2 : (Bernoulli.kurtosis ⟨⟨a⟩, ⟨1 - a⟩, a * (1 - a)⟩).Is (1 / (p * (1 - p)) - 6) := (Is.one.div hv' w.ne').sub (Is.num 6)
    refine ⟨⟨(1 - 2 * p) / Real.sqrt (p * (1 - p)), ?_, ?_⟩, ⟨_, k1, k2⟩, ⟨_, k1.sub (Is.num 3), ?_⟩, ⟨1 / (p * (1 - p)), ?_, Is.one.div hv' w.ne'⟩⟩
    · exact ((Is.one.sub (ha.mul (Is.num 2))).div sv (Real.sqrt_pos.2 w).ne').congr (by ring)
    · exact ((Is.one.sub ((Is.num 2).mul ha)).div sv' (Real.sqrt_pos.2 w).ne')
    · exact ((Is.one.div hv' w.ne').sub (Is.num 9)).congr (by ring)
    · exact ((one.div ha p0.ne').div hq q0).congr (by field_simp)

/-- C242, violated: at 0 (`false`) the two distribution functions differ for every p < 1: Binomial's is the mass at 0, Bernoulli's is 0. -/
theorem C242_binomial_bernoulli_cdf_violated {a : F64} {p : ℝ} {b : Bernoulli} {d : Binomial} (hb : Bernoulli.new a = .ok b)
    (hd : Binomial.new 1 ⟨a⟩ = .ok d) (ha : a.Is p) (h1 : p < 1) (pr : Profile) :
    ∃ r, d.cdf pr 0 = .ok r ∧ r.val.Is (1 - p) ∧ (b.cdf false).val.Is 0 ∧ ¬ SameVal r.val (b.cdf false).val := by
  have hP : (Probability.mk a).val.Is p := ha
  obtain ⟨r, hr, hv, -⟩ := C121_binomial_cdf_partial hd hP pr 0 (by norm_num) (by norm_num)
  have e : (r.val).Is (1 - p) := hv.congr (by simp [binPMF])
  have z : (b.cdf false).val.Is 0 := Is.zero
  refine ⟨r, hr, e, z, ?_⟩
  rintro ⟨u, h2, h3⟩
  have := h2.eq e; have := h3.eq z; linarith

theorem betaBin_one (n k : ℕ) (h : k ≤ n) : betaBinPMF n 1 1 k = 1 / ((n : ℝ) + 1) := by
  have e1 : Real.Gamma (k + 1) = k.factorial := Real.Gamma_nat_eq_factorial k
  have e2 : Real.Gamma ((n : ℝ) - k + 1) = (n - k).factorial := by
    rw [← Nat.cast_sub h]; exact Real.Gamma_nat_eq_factorial _
  have e3 : Real.Gamma ((k : ℝ) + 1 + ((n : ℝ) - k + 1)) = (n + 1).factorial := by
    rw [show (k : ℝ) + 1 + ((n : ℝ) - k + 1) = ((n + 1 : ℕ) : ℝ) + 1 by push_cast; ring]; exact Real.Gamma_nat_eq_factorial _
  have e4 : Beta 1 1 = 1 := by
    rw [Beta, Real.Gamma_one, show (1 : ℝ) + 1 = 2 by norm_num, Real.Gamma_two]; norm_num
  rw [betaBinPMF, e4, Beta, e1, e2, e3, Nat.factorial_succ]
  have := Nat.choose_mul_factorial_mul_factorial h
  have hf : (n.factorial : ℝ) ≠ 0 := Nat.cast_ne_zero.2 n.factorial_ne_zero
  have h' : (n.choose k : ℝ) * k.factorial * (n - k).factorial = n.factorial := by exact_mod_cast this
  push_cast
  field_simp
  linarith

/-- C242: `BetaBinomial(n, 1, 1)` and the discrete `Uniform` on `0, …, n` have the same mass function (where the binomial coefficients fit in
u64), mean and variance. -/
theorem C242_beta_binomial_uniform {n : ℕ} {a b : F64} {d : BetaBinomial} {u : UniformI} {pr : Profile} (hd : BetaBinomial.new n a b = .ok d)
    (ha : a.Is 1) (hb : b.Is 1) (hf : UniformI.Fits 0 n) (hu : UniformI.new pr 0 n = .ok (.ok u)) :
    (∀ k, k ≤ n → (∀ i < min k (n - k), n.choose i * (n - i) < 2 ^ 64) →
      ∃ r s, d.pmf pr k = .ok r ∧ u.pmf pr k = .ok s ∧ SameVal r.val s.val) ∧
    SameVal d.mean u.mean ∧ (∃ v, u.variance pr = .ok v ∧ SameVal d.variance v) := by
  obtain ⟨-, -, dp, de, -, ⟨m, v, hm, hv, hmv⟩⟩ := C159_beta_binomial hd ha hb
  obtain ⟨-, -, up, -, ⟨m', v', hm', ⟨w, hw, hv'⟩, hmv'⟩, -⟩ := C54_uniform_int_partial hf hu
  have pe : ∀ k : ℕ, betaBinPMF n 1 1 k = uniformPMF 0 (0 + n) k := fun k => by
    unfold uniformPMF
    by_cases h : k ≤ n
    · rw [betaBin_one n k h, if_pos ⟨by omega, by omega⟩]; push_cast; simp
    · rw [bb_zero (not_le.1 h), if_neg (by omega)]
  have inj : Function.Injective (fun k : ℕ => (k : ℤ)) := Nat.cast_injective
  have key : ∀ (g : ℝ → ℝ) (s : ℝ), HasSum (fun k : ℕ => g k * betaBinPMF n 1 1 k) s ↔ HasSum (fun k : ℤ => g k * uniformPMF 0 (0 + n) k) s := fun g s => by
    rw [← inj.hasSum_iff (f := fun k : ℤ => g k * uniformPMF 0 (0 + n) k)]
    · refine Eq.to_iff (congrArg (fun f => HasSum f s) (funext fun k => ?_))
      simp [pe]
    · intro k hk
      have : ¬ (0 : ℤ) ≤ k := fun h => hk ⟨k.toNat, by simp [h]⟩
      rw [uniformPMF, if_neg (by omega), mul_zero]
  have hmv2 : HasMeanVarD (uniformPMF 0 (0 + n)) (fun k => (k : ℝ)) m v := by
    refine ⟨(key (fun x => x) m).1 hmv.1, ?_⟩
    exact (key (fun x => (x - m) ^ 2) v).1 hmv.2
  obtain ⟨rfl, rfl⟩ := hmv2.unique hmv'
  refine ⟨fun k hk hc => ?_, ⟨_, hm, hm'⟩, ⟨w, hw, _, hv, hv'⟩⟩
  obtain ⟨r, hr, h1⟩ := dp pr k hk (by have := hf.2.2; omega) hc
  obtain ⟨s, hs, h2⟩ := up k
  rw [de, pe] at h1
  exact ⟨r, s, hr, hs, _, h1, h2⟩

/-- C242: `Categorical[1-p, p]` and `Bernoulli(p)` have the same mass function, category 1 being `true`. -/
theorem C242_categorical_bernoulli {a q : F64} {p : ℝ} {b : Bernoulli} {d : Categorical} (hb : Bernoulli.new a = .ok b)
    (hd : Categorical.new [q, a] = .ok d) (ha : a.Is p) (hq : q.Is (1 - p)) (k : Bool) :
    ∃ r, d.pmf k.toNat = .ok r ∧ SameVal r.val (b.pmf k).val := by
  obtain ⟨-, hpm, -⟩ := C85_bernoulli hb ha
  cases k
  · exact ⟨⟨q⟩, ((C91_categorical_pmf hd 0).1 q rfl).1, _, hq, (hpm false).1⟩
  · exact ⟨⟨a⟩, ((C91_categorical_pmf hd 1).1 a rfl).1, _, ha, (hpm true).1⟩

/-- C242: each count of a `Multinomial(n, ps)` has the mean and the variance of `Binomial(n, ps[i])`. -/
theorem C242_multinomial_binomial {N n : ℕ} {ps : Fin N → F64} {p : Fin N → ℝ} {d : Multinomial N} (hd : Multinomial.new n ps = .ok d)
    (hp : ∀ i, (ps i).Is (p i)) (i : Fin N) {b : Binomial} (hb : Binomial.new n ⟨ps i⟩ = .ok b) :
    SameVal (d.mean i) b.mean ∧ SameVal (d.variance i) b.variance ∧ SameVal (d.covariance i i) b.variance := by
  obtain ⟨_, rfl⟩ := Multinomial.new_ok.1 hd
  obtain ⟨_, rfl⟩ := Binomial.new_ok.1 hb
  have hq : (Probability.not ⟨ps i⟩).val.Is (1 - p i) := Is.one.sub (hp i)
  refine ⟨⟨_, (hp i).mul (Is.ofNat n), (hp i).mul (Is.ofNat n)⟩,
    ⟨_, ((hp i).mul (Is.one.sub (hp i))).mul (Is.ofNat n), ((hp i).mul hq).mul (Is.ofNat n)⟩,
    ⟨n * p i * (1 - p i), ?_, (((hp i).mul hq).mul (Is.ofNat n)).congr (by ring)⟩⟩
  unfold Multinomial.covariance
  rw [if_pos rfl]
  exact ((Is.ofNat n).mul (hp i)).mul (Is.one.sub (hp i))
end

/-! ### concrete cases -/
section
attribute [local instance] exactFP exactFP_exact
theorem bern_ex4 : Bernoulli.new (fin (1 / 4)) = .ok ⟨⟨fin (1 / 4)⟩, ⟨1 - fin (1 / 4)⟩, fin (1 / 4) * (1 - fin (1 / 4))⟩ :=
  Bernoulli.new_ok.2 ⟨⟨fin_le_fin.2 (by norm_num), fin_le_fin.2 (by norm_num)⟩, rfl⟩
theorem bin_ex4 (n : ℕ) : Binomial.new n ⟨fin (1 / 4)⟩ = .ok ⟨n, ⟨fin (1 / 4)⟩, Probability.not ⟨fin (1 / 4)⟩⟩ :=
  Binomial.new_ok.2 ⟨⟨fin_le_fin.2 (by norm_num), fin_le_fin.2 (by norm_num)⟩, rfl⟩
example : SameVal (Binomial.variance ⟨1, ⟨fin (1 / 4)⟩, Probability.not ⟨fin (1 / 4)⟩⟩) (fin (1 / 4) * (1 - fin (1 / 4))) :=
  (C242_binomial_bernoulli_partial bern_ex4 (bin_ex4 1) (Is.fin _)).2.2.1
example : ∃ r, Binomial.cdf ⟨1, ⟨fin (1 / 4)⟩, Probability.not ⟨fin (1 / 4)⟩⟩ .debug 0 = .ok r ∧ r.val.Is (3 / 4) := by
  obtain ⟨r, h1, h2, -⟩ := C242_binomial_bernoulli_cdf_violated bern_ex4 (bin_ex4 1) (Is.fin _) (by norm_num) .debug
  exact ⟨r, h1, h2.congr (by norm_num)⟩
example : ∃ d u, BetaBinomial.new 10 (fin 1) (fin 1) = .ok d ∧ UniformI.new .debug 0 10 = .ok (.ok u) ∧ SameVal d.mean u.mean := by
  have hf : UniformI.Fits 0 10 := ⟨by norm_num, by norm_num, by norm_num⟩
  have h1 : ∃ d, BetaBinomial.new 10 (fin 1) (fin 1) = .ok d := ⟨_, BetaBinomial.new_ok.2 ⟨fin_lt_fin.2 (by norm_num), fin_lt_fin.2 (by norm_num), rfl⟩⟩
  have h2 : ∃ u, UniformI.new .debug 0 10 = .ok (.ok u) := ⟨_, (UniformI.new_ok hf).2 ⟨by norm_num, rfl⟩⟩
  obtain ⟨d, h1⟩ := h1
  obtain ⟨u, h2⟩ := h2
  exact ⟨_, _, h1, h2, (C242_beta_binomial_uniform h1 (Is.fin _) (Is.fin _) hf h2).2.1⟩
theorem simplex_ex4 : SimplexVector.new [fin (3 / 4), fin (1 / 4)] = .ok ⟨[fin (3 / 4), fin (1 / 4)]⟩ := by
  refine (C05_simplex_new_iff _ _).2 ⟨rfl, ?_, ?_⟩
  · intro p hp
    simp only [List.mem_cons, List.not_mem_nil, or_false] at hp
    rcases hp with rfl | rfl
    · exact ⟨_, Is.fin _, by norm_num, by norm_num⟩
    · exact ⟨_, Is.fin _, by norm_num, by norm_num⟩
  · have e : (F64.sum [fin (3 / 4), fin (1 / 4)] - 1).abs.Is 0 := by
      have := ((Is.zero.add (Is.fin (3 / 4))).add (Is.fin (1 / 4))).sub Is.one |>.abs
      exact Is.congr this (by norm_num)
    exact (Is.lt_iff e (Is.lit _)).2 (by norm_num)
example : ∃ d r, Categorical.new [fin (3 / 4), fin (1 / 4)] = .ok d ∧ d.pmf 1 = .ok r ∧ r.val.Is (1 / 4) := by
  have hd : Categorical.new [fin (3 / 4), fin (1 / 4)] = .ok ⟨⟨[fin (3 / 4), fin (1 / 4)]⟩⟩ := Categorical.new_ok.2 simplex_ex4
  obtain ⟨r, h1, u, h2, h3⟩ := C242_categorical_bernoulli bern_ex4 hd (Is.fin _) (by convert Is.fin _ using 1; norm_num) true
  exact ⟨_, r, hd, h1, h2.congr (h3.eq (Is.fin _))⟩
example : ∃ d : Multinomial 2, Multinomial.new 7 ![fin (3 / 4), fin (1 / 4)] = .ok d ∧
    SameVal (d.variance 1) (Binomial.variance ⟨7, ⟨fin (1 / 4)⟩, Probability.not ⟨fin (1 / 4)⟩⟩) := by
  have hd : Multinomial.new 7 ![fin (3 / 4), fin (1 / 4)] = .ok ⟨7, ![fin (3 / 4), fin (1 / 4)]⟩ := Multinomial.new_ok.2 ⟨⟨_, simplex_ex4⟩, rfl⟩
  exact ⟨_, hd, (C242_multinomial_binomial (p := ![3 / 4, 1 / 4]) hd (by intro i; fin_cases i <;> exact Is.fin _) 1 (bin_ex4 7)).2.1⟩
end
end Rstat
