import Verif.Props.Dist.Gamma
import Verif.Props.Dist.Poisson
import Verif.Lemmas.Dist.Chi

/-! Properties C137–C141: the Erlang and inverse Gamma laws. -/
set_option linter.unusedSectionVars false
namespace Rstat
open F64 Consts Spec MeasureTheory ProbabilityTheory Set

theorem Erlang.new_ok [FP] {k : ℕ} {l : F64} {d : Erlang} : Erlang.new k l = .ok d ↔ 0 < k ∧ 0 < l ∧ d = ⟨k, l⟩ := by
  simp only [Erlang.new, exc_bind_ok, Shape.newU_ok, Rate.new_ok]
  constructor
  · rintro ⟨_, ⟨h0, rfl⟩, _, ⟨h1, rfl⟩, h⟩; exact ⟨h0, h1, by cases h; rfl⟩
  · rintro ⟨h0, h1, rfl⟩; exact ⟨_, ⟨h0, rfl⟩, _, ⟨h1, rfl⟩, rfl⟩

theorem InvGamma.new_ok [FP] {a b : F64} {d : InvGamma} : InvGamma.new a b = .ok d ↔ 0 < a ∧ 0 < b ∧ d = ⟨a, b⟩ := by
  simp only [InvGamma.new, exc_bind_ok, Shape.new_ok]
  constructor
  · rintro ⟨_, ⟨h0, rfl⟩, _, ⟨h1, rfl⟩, h⟩; exact ⟨h0, h1, by cases h; rfl⟩
  · rintro ⟨h0, h1, rfl⟩; exact ⟨_, ⟨h0, rfl⟩, _, ⟨h1, rfl⟩, rfl⟩

section
variable [FP] [FP.Exact] {k : ℕ} {l : F64} {lam : ℝ} {d : Erlang}

theorem erlang_log {lam t : ℝ} (hk : 0 < k) (hl : 0 < lam) (ht : 0 < t) : Real.log (gammaPDFReal k lam t) =
    k * Real.log lam + (k - 1) * Real.log t - lam * t - Real.log (k - 1).factorial := by
  have hk' : (0:ℝ) < k := by exact_mod_cast hk
  rw [gamma_log hk' hl ht]
  obtain ⟨j, rfl⟩ := Nat.exists_eq_add_of_le' hk
  rw [Nat.add_sub_cancel]
  push_cast
  rw [Real.Gamma_nat_eq_factorial]

/-- C137: mean, variance, skewness, kurtosis and mode of the Erlang law; `mu()` is the mean of one exponential stage. -/
theorem C137_erlang (h : Erlang.new k l = .ok d) (hl : l.Is lam) :
    0 < k ∧ 0 < lam ∧ IsDensityOf (gammaPDFReal k lam) (gammaCDF k lam) ∧
    (∃ m v, d.mean.Is m ∧ d.variance.Is v ∧ HasMeanVar (gammaPDFReal k lam) m v) ∧
    (∃ s, d.skewness.Is s ∧ HasSkew (gammaPDFReal k lam) s) ∧
    (∃ κ, d.excessKurtosis.Is (κ - 3) ∧ HasKurt (gammaPDFReal k lam) κ) ∧
    (∀ pr, ∃ x m, d.modes pr = .ok [x] ∧ x.Is m ∧ IsMode (gammaPDFReal k lam) m) ∧
    (∃ μ, d.mu.Is μ ∧ HasMean (gammaPDFReal 1 lam) μ) := by
  obtain ⟨h0, h1, rfl⟩ := Erlang.new_ok.1 h
  have hk : (0:ℝ) < k := by exact_mod_cast h0
  have hlam : 0 < lam := pos_of_lt h1 hl
  have hkn : (F64.ofNat k).Is k := Is.ofNat k
  have hs : 0 < Real.sqrt k := Real.sqrt_pos.2 hk
  obtain ⟨m2, m3, m4⟩ := gamma_moments hk hlam
  have h1k : (1:ℝ) ≤ k := by exact_mod_cast h0
  refine ⟨h0, hlam, (gamma_density hk hlam).2, ⟨_, _, ?_, ?_, m2⟩, ⟨_, ?_, m3⟩, ⟨_, ?_, m4⟩,
    fun pr => ⟨F64.ofNat (k - 1) / l, ((k:ℝ) - 1) / lam, ?_, ?_, gamma_mode h1k hlam⟩,
    ⟨1 / lam, Is.one.div hl hlam.ne', (gamma_moments one_pos hlam).1.1⟩⟩
  · unfold Erlang.mean; fev
  · unfold Erlang.variance
    exact ((hkn.div hl hlam.ne').div hl hlam.ne').congr (by rw [div_div, sq])
  · unfold Erlang.skewness; fev
  · unfold Erlang.excessKurtosis
    exact ((Is.num 6).div hkn hk.ne').congr (by ring)
  · unfold Erlang.modes
    dsimp only
    rw [usub_ok h0]; rfl
  · refine Is.div ((Is.ofNat _).congr ?_) hl hlam.ne'
    rw [Nat.cast_sub h0]; simp

/-- what `pdf` computes: (k−1)·x stands where (k−1)·ln x belongs -/
theorem Erlang.pdf_is (h : Erlang.new k l = .ok d) (hl : l.Is lam) (pr : Profile) {x : F64} {t : ℝ}
    (hk : k < 2 ^ 64) (hx : x.Is t) : ∃ (y : F64) (v : ℝ), d.pdf pr x = .ok y ∧ |v - Real.log (k - 1).factorial| ≤ 1 / 10 ^ 6 ∧
      (k = 1 → v = 0) ∧ y.Is (Real.exp (k * Real.log lam + (k - 1) * t - lam * t - v)) := by
  obtain ⟨h0, h1, rfl⟩ := Erlang.new_ok.1 h
  have hlam : 0 < lam := pos_of_lt h1 hl
  have key : ∀ (b : F64) (v : ℝ), logFactorialStirling pr (k - 1) = .ok b → b.Is v →
      ∃ y : F64, Erlang.pdf pr ⟨k, l⟩ x = .ok y ∧ y.Is (Real.exp (k * Real.log lam + (k - 1) * t - lam * t - v)) := by
    intro b v hb hv
    refine ⟨(F64.ofNat k * l.ln + F64.ofNat (k - 1) * x - l * x - b).exp, ?_, ?_⟩
    · unfold Erlang.pdf Erlang.logPdf
      dsimp only
      rw [usub_ok h0, exc_ok_bind, hb]; rfl
    · have hk1 : (F64.ofNat (k - 1)).Is ((k:ℝ) - 1) := (Is.ofNat _).congr (by rw [Nat.cast_sub h0]; simp)
      have hkn : (F64.ofNat k).Is k := Is.ofNat k
      exact ((((hkn.mul (hl.ln hlam)).add (hk1.mul hx)).sub (hl.mul hx)).sub hv).exp
  by_cases hk1 : k = 1
  · subst hk1
    obtain ⟨b, hb, hz⟩ := logFact_zero pr
    obtain ⟨y, h2, h3⟩ := key b 0 hb hz
    exact ⟨y, 0, h2, by simp, fun _ => rfl, h3⟩
  · obtain ⟨b, v, hb, hv, he⟩ := logFact_close pr (k - 1) (by omega)
    obtain ⟨y, h2, h3⟩ := key b v hb hv
    exact ⟨y, v, h2, he, fun h => absurd h hk1, h3⟩

/-- C138 (violated for every k ≥ 2): at every x > 0 the returned density is more than twice the Erlang density. -/
theorem C138_erlang_pdf_violated (h : Erlang.new k l = .ok d) (hl : l.Is lam) (pr : Profile) {x : F64} {t : ℝ}
    (hk : 2 ≤ k) (hk' : k < 2 ^ 64) (ht : 0 < t) (hx : x.Is t) :
    ∃ y r, d.pdf pr x = .ok y ∧ y.Is r ∧ 0 < gammaPDFReal k lam t ∧ 2 * gammaPDFReal k lam t < r := by
  obtain ⟨y, v, h1, h2, _, h3⟩ := Erlang.pdf_is h hl pr hk' hx
  obtain ⟨h0, h1', rfl⟩ := Erlang.new_ok.1 h
  have hlam : 0 < lam := pos_of_lt h1' hl
  have hkp : (0:ℝ) < k := by exact_mod_cast h0
  have hG := Real.Gamma_pos_of_pos hkp
  have hpos : 0 < gammaPDFReal k lam t := by rw [gammaPDF_pos_eq ht]; positivity
  refine ⟨y, _, h1, h3, hpos, ?_⟩
  have hlog := erlang_log (k := k) h0 hlam ht
  rw [← Real.exp_log hpos, hlog]
  have e2 : (2:ℝ) = Real.exp (Real.log 2) := (Real.exp_log two_pos).symm
  rw [e2, ← Real.exp_add, Real.exp_lt_exp]
  have hk2 : (2:ℝ) ≤ k := by exact_mod_cast hk
  have hlt := Real.log_le_sub_one_of_pos ht
  have l2 := Real.log_two_lt_d9
  have h4 : (k - 1) * 1 ≤ ((k:ℝ) - 1) * (t - Real.log t) := mul_le_mul_of_nonneg_left (by linarith) (by linarith)
  have := (abs_le.1 h2).2
  norm_num at l2 this
  linarith

/-- C138 (what holds): with one stage (k = 1) `pdf` is the exponential density. -/
theorem C138_erlang_pdf_partial (h : Erlang.new 1 l = .ok d) (hl : l.Is lam) (pr : Profile) {x : F64} {t : ℝ} (ht : 0 < t)
    (hx : x.Is t) : ∃ y, d.pdf pr x = .ok y ∧ y.Is (gammaPDFReal (1:ℕ) lam t) := by
  obtain ⟨y, v, h1, _, h2, h3⟩ := Erlang.pdf_is h hl pr (by norm_num) hx
  obtain ⟨h0, h1', rfl⟩ := Erlang.new_ok.1 h
  have hlam : 0 < lam := pos_of_lt h1' hl
  have hG := Real.Gamma_pos_of_pos (show (0:ℝ) < (1:ℕ) by norm_num)
  have hpos : 0 < gammaPDFReal (1:ℕ) lam t := by rw [gammaPDF_pos_eq ht]; positivity
  refine ⟨y, h1, h3.congr ?_⟩
  rw [← Real.exp_log hpos, erlang_log one_pos hlam ht, h2 rfl]
  simp

/-- what `cdf` computes: P(k, λx) / k! -/
theorem Erlang.cdf_is (h : Erlang.new k l = .ok d) (hl : l.Is lam) (pr : Profile) {x : F64} {t : ℝ}
    (hk : k < 2 ^ 64 - 1) (ht : 0 < t) (hx : x.Is t) : ∃ (y : Probability) (v : ℝ), d.cdf pr x = .ok y ∧
      |v - Real.log k.factorial| ≤ 1 / 10 ^ 6 ∧ (k = 1 → v = 0) ∧ y.val.Is (gammaCDF k lam t * Real.exp (-v)) := by
  obtain ⟨h0, h1, rfl⟩ := Erlang.new_ok.1 h
  have hlam : 0 < lam := pos_of_lt h1 hl
  have hkp : (0:ℝ) < k := by exact_mod_cast h0
  have key : ∀ (b : F64) (v : ℝ), logFactorialStirling pr k = .ok b → b.Is v →
      ∃ y : Probability, Erlang.cdf pr ⟨k, l⟩ x = .ok y ∧ y.val.Is (gammaCDF k lam t * Real.exp (-v)) := by
    intro b v hb hv
    refine ⟨⟨(((F64.ofNat k).gammainc (l * x)).ln - b).exp⟩, ?_, ?_⟩
    · unfold Erlang.cdf Erlang.logCdf
      dsimp only
      rw [hb]; rfl
    · have hkn : (F64.ofNat k).Is k := Is.ofNat k
      have hp : 0 < gammaP k (lam * t) := gammaP_pos hkp (by positivity)
      refine (((((hkn.gammainc (hl.mul hx) hkp (by positivity)).ln hp).sub hv).exp)).congr ?_
      rw [sub_eq_add_neg, Real.exp_add, Real.exp_log hp, gammaCDF_pos_eq ht]
  by_cases hk1 : k = 1
  · subst hk1
    have hb : ∃ b : F64, logFactorialStirling pr 1 = .ok b ∧ b.Is 0 := by
      refine ⟨F64.lit ((0:ℕ) / 10 ^ 15), ?_, (Is.lit _).congr (by norm_num)⟩
      unfold logFactorialStirling
      rw [if_neg (by norm_num)]; rfl
    obtain ⟨b, hb, hz⟩ := hb
    obtain ⟨y, h2, h3⟩ := key b 0 hb hz
    exact ⟨y, 0, h2, by simp, fun _ => rfl, h3⟩
  · obtain ⟨b, v, hb, hv, he⟩ := logFact_close pr k hk
    obtain ⟨y, h2, h3⟩ := key b v hb hv
    exact ⟨y, v, h2, he, fun h => absurd h hk1, h3⟩

/-- C139 (violated for every k ≥ 2): the cdf is divided by k!: it is at most 0.51 of the distribution function at every
x > 0, so it never reaches 1. -/
theorem C139_erlang_cdf_violated (h : Erlang.new k l = .ok d) (hl : l.Is lam) (pr : Profile) {x : F64} {t : ℝ}
    (hk : 2 ≤ k) (hk' : k < 2 ^ 64 - 1) (ht : 0 < t) (hx : x.Is t) :
    ∃ y r, d.cdf pr x = .ok y ∧ y.val.Is r ∧ 0 < gammaCDF k lam t ∧ r ≤ 0.51 * gammaCDF k lam t ∧ r ≤ 0.51 := by
  obtain ⟨y, v, h1, h2, _, h3⟩ := Erlang.cdf_is h hl pr hk' ht hx
  obtain ⟨h0, h1', rfl⟩ := Erlang.new_ok.1 h
  have hlam : 0 < lam := pos_of_lt h1' hl
  have hkp : (0:ℝ) < k := by exact_mod_cast h0
  have hp : 0 < gammaCDF k lam t := by rw [gammaCDF_pos_eq ht]; exact gammaP_pos hkp (by positivity)
  have hlt : gammaCDF k lam t < 1 := by rw [gammaCDF_pos_eq ht]; exact gammaP_lt_one hkp (by positivity)
  have hfac : Real.log 2 ≤ Real.log k.factorial := by
    apply Real.log_le_log two_pos
    have : Nat.factorial 2 ≤ k.factorial := Nat.factorial_le hk
    exact_mod_cast this
  have hv : Real.log 2 - 1 / 10 ^ 6 ≤ v := by have := (abs_le.1 h2).1; linarith
  have hexp : Real.exp (-v) ≤ 0.51 := by
    have h4 : Real.exp (-v) ≤ Real.exp (1 / 10 ^ 6 + -Real.log 2) := Real.exp_le_exp.2 (by linarith)
    rw [Real.exp_add, Real.exp_neg (Real.log 2), Real.exp_log two_pos] at h4
    have h5 := exp_sub_one_small (x := 1 / 10 ^ 6) (by rw [abs_of_pos (by norm_num)])
    have h6 := (abs_le.1 h5).2
    norm_num at h4 h6 ⊢
    linarith
  have hle : gammaCDF k lam t * Real.exp (-v) ≤ gammaCDF k lam t * 0.51 := mul_le_mul_of_nonneg_left hexp hp.le
  refine ⟨y, _, h1, h3, hp, by linarith, ?_⟩
  have : gammaCDF k lam t * 0.51 ≤ 1 * 0.51 := mul_le_mul_of_nonneg_right hlt.le (by norm_num)
  linarith

/-- C139 (what holds): with one stage the cdf is the exponential distribution function. -/
theorem C139_erlang_cdf_partial (h : Erlang.new 1 l = .ok d) (hl : l.Is lam) (pr : Profile) {x : F64} {t : ℝ} (ht : 0 < t)
    (hx : x.Is t) : ∃ y, d.cdf pr x = .ok y ∧ y.val.Is (gammaCDF (1:ℕ) lam t) := by
  obtain ⟨y, v, h1, _, h2, h3⟩ := Erlang.cdf_is h hl pr (by norm_num) ht hx
  refine ⟨y, h1, h3.congr ?_⟩
  rw [h2 rfl]; simp

/-! ### Inverse Gamma -/
variable {a b : F64} {α β : ℝ} {g : InvGamma}

/-- C140: density, mean, variance, skewness, kurtosis (each returned exactly when the moment exists, refused by a panic
otherwise), mode and entropy of the inverse Gamma law. -/
theorem C140_inverse_gamma (h : InvGamma.new a b = .ok g) (ha : a.Is α) (hb : b.Is β) :
    0 < α ∧ 0 < β ∧ Computes g.pdf (invGammaPDF α β) (Ioi 0) ∧
    IsCDF (invGammaCDF α β) ∧ IsDensityOf (invGammaPDF α β) (invGammaCDF α β) ∧
    (1 < α → ∃ m, Returns g.mean m ∧ HasMean (invGammaPDF α β) m) ∧
    (α ≤ 1 → g.mean = .error .undefined ∧ ∀ m, ¬ HasMean (invGammaPDF α β) m) ∧
    (2 < α → ∃ m v, Returns g.variance v ∧ HasMeanVar (invGammaPDF α β) m v) ∧
    (α ≤ 2 → g.variance = .error .undefined ∧ ∀ m v, ¬ HasMeanVar (invGammaPDF α β) m v) ∧
    (3 < α → ∃ s, Returns g.skewness s ∧ HasSkew (invGammaPDF α β) s) ∧
    (α ≤ 3 → g.skewness = .error .undefined ∧ ∀ s, ¬ HasSkew (invGammaPDF α β) s) ∧
    (4 < α → ∃ κ, Returns g.excessKurtosis (κ - 3) ∧ HasKurt (invGammaPDF α β) κ) ∧
    (α ≤ 4 → g.excessKurtosis = .error .undefined ∧ ∀ κ, ¬ HasKurt (invGammaPDF α β) κ) ∧
    (∃ x m, g.modes = [x] ∧ x.Is m ∧ IsMode (invGammaPDF α β) m) ∧
    (∃ e, g.shannonEntropy.Is e ∧ HasEntropy (invGammaPDF α β) e) := by
  obtain ⟨h0, h1, rfl⟩ := InvGamma.new_ok.1 h
  have hα : 0 < α := pos_of_lt h0 ha
  have hβ : 0 < β := pos_of_lt h1 hb
  have hG := Real.Gamma_pos_of_pos hα
  obtain ⟨hF, hD⟩ := invGamma_density hα hβ
  obtain ⟨r1, r2, r3, r4⟩ := invGamma_raws (a := α) hβ
  have nle : ∀ {c : ℝ} {x : F64}, x.Is c → c < α → ¬ a ≤ x := fun hc hlt hle =>
    absurd ((ha.le_iff hc).1 hle) (not_le.2 hlt)
  have yle : ∀ {c : ℝ} {x : F64}, x.Is c → α ≤ c → a ≤ x := fun hc hle => (ha.le_iff hc).2 hle
  have i1 : (1 : F64).Is 1 := Is.one
  have i2 : (2 : F64).Is 2 := Is.num 2
  have i3 : (3 : F64).Is 3 := Is.num 3
  have i4 : (4 : F64).Is 4 := Is.num 4
  have a1 : (a - 1).Is (α - 1) := ha.sub i1
  have a2 : (a - 2).Is (α - 2) := ha.sub i2
  have a3 : (a - 3).Is (α - 3) := ha.sub i3
  have a4 : (a - 4).Is (α - 4) := ha.sub i4
  refine ⟨hα, hβ, fun x t ht hx => ?_, hF, hD, fun hc => ⟨_, ⟨b / (a - 1), ?_, ?_⟩, r1 hc⟩, fun hc => ⟨?_, fun m hm => ?_⟩,
    fun hc => ?_, fun hc => ⟨?_, fun m v hm => invGamma_raw_infinite hα hβ (n := 2) (by push_cast; exact hc) m v hm.2⟩,
    fun hc => ?_, fun hc => ⟨?_, ?_⟩, fun hc => ?_, fun hc => ⟨?_, ?_⟩,
    ⟨b / (a + 1), _, rfl, ?_, invGamma_mode hα hβ⟩, ⟨_, ?_, invGamma_entropy hα hβ⟩⟩
  · have ht : 0 < t := ht
    unfold InvGamma.pdf
    rw [invGammaPDF, if_neg (not_le.2 ht)]
    refine Is.congr (r := β ^ α * t ^ (-α - 1) * Real.exp (-β / t) / Real.Gamma α) (by fev) ?_
    ring
  · unfold InvGamma.mean; rw [if_neg (nle i1 hc)]
  · exact hb.div a1 (by linarith)
  · unfold InvGamma.mean; rw [if_pos (yle i1 hc)]
  · exact invGamma_raw_infinite hα hβ (n := 1) (by push_cast; exact hc) 0 m (hasMean_iff_raw.1 hm)
  · have n1 : α - 1 ≠ 0 := by linarith
    have n2 : α - 2 ≠ 0 := by linarith
    have c2 := central2 hD.integrable hD.total (r1 (by linarith)) (r2 hc)
    refine ⟨_, _, ⟨b * b / (a - 1) / (a - 1) / (a - 2), ?_, ?_⟩, r1 (by linarith), c2⟩
    · unfold InvGamma.variance; rw [if_neg (nle i2 hc)]
    · refine ((((hb.mul hb).div a1 n1).div a1 n1).div a2 n2).congr ?_
      field_simp; ring
  · unfold InvGamma.variance; rw [if_pos (yle i2 hc)]
  · have n1 : α - 1 ≠ 0 := by linarith
    have n2 : 0 < α - 2 := by linarith
    have n3 : α - 3 ≠ 0 := by linarith
    have p1 : 0 < α - 1 := by linarith
    obtain ⟨hv, m2, m3⟩ := skew_of_raw hD (r1 (by linarith)) (r2 (by linarith)) (r3 hc)
    refine ⟨_, ⟨4 * (a - 2).sqrt / (a - 3), ?_, ?_⟩, m3⟩
    · unfold InvGamma.skewness; rw [if_neg (nle i3 hc)]
    · refine ((i4.mul (a2.sqrt n2.le)).div a3 n3).congr ?_
      obtain ⟨s, hs, hs2⟩ : ∃ s : ℝ, 0 < s ∧ s ^ 2 = α - 2 := ⟨_, Real.sqrt_pos.2 n2, Real.sq_sqrt n2.le⟩
      have e1 : Real.sqrt (α - 2) = s := by rw [← hs2, Real.sqrt_sq hs.le]
      have e2 : Real.sqrt (β ^ 2 / ((α - 1) * (α - 2)) - (β / (α - 1)) ^ 2) = β / ((α - 1) * s) := by
        rw [show β ^ 2 / ((α - 1) * (α - 2)) - (β / (α - 1)) ^ 2 = (β / ((α - 1) * s)) ^ 2 by
          have e3 : (β / ((α - 1) * s)) ^ 2 = β ^ 2 / ((α - 1) ^ 2 * (α - 2)) := by rw [div_pow, mul_pow, hs2]
          rw [e3]; field_simp; ring, Real.sqrt_sq (by positivity)]
      rw [e1, e2]
      have hαs : α = s ^ 2 + 2 := by linarith
      have q1 : s ^ 2 + 2 - 3 ≠ 0 := by rw [← hαs]; exact n3
      have q2 : s ^ 2 + 2 - 1 ≠ 0 := by rw [← hαs]; exact n1
      rw [hαs, show s ^ 2 + 2 - 2 = s ^ 2 by ring]
      field_simp
      ring
  · unfold InvGamma.skewness; rw [if_pos (yle i3 hc)]
  · rintro s ⟨m, v, _, _, hm⟩
    exact invGamma_raw_infinite hα hβ (n := 3) (by push_cast; exact hc) m _ hm
  · have n1 : α - 1 ≠ 0 := by linarith
    have n2 : α - 2 ≠ 0 := by linarith
    have n3 : α - 3 ≠ 0 := by linarith
    have n4 : α - 4 ≠ 0 := by linarith
    obtain ⟨hv, m2, m3, m4⟩ := moments_of_raw hD (r1 (by linarith)) (r2 (by linarith)) (r3 (by linarith)) (r4 hc)
    refine ⟨_, ⟨(30 * a - 66) / (a - 3) / (a - 4), ?_, ?_⟩, m4⟩
    · unfold InvGamma.excessKurtosis; rw [if_neg (nle i4 hc)]
    · refine (((((Is.num 30).mul ha).sub (Is.num 66)).div a3 n3).div a4 n4).congr ?_
      have e1 : β ^ 2 / ((α - 1) * (α - 2)) - (β / (α - 1)) ^ 2 = β ^ 2 / ((α - 1) ^ 2 * (α - 2)) := by field_simp; ring
      rw [e1, eq_sub_iff_add_eq]
      field_simp
      ring
  · unfold InvGamma.excessKurtosis; rw [if_pos (yle i4 hc)]
  · rintro s ⟨m, v, _, _, hm⟩
    exact invGamma_raw_infinite hα hβ (n := 4) (by push_cast; exact hc) m _ hm
  · exact hb.div (ha.add i1) (by linarith)
  · unfold InvGamma.shannonEntropy
    exact (ha.add ((hb.mul (ha.gamma hα)).ln (by positivity))).sub ((i1.add ha).mul (ha.digamma hα))

theorem InvGamma.cdf_is (ha : a.Is α) (hb : b.Is β) (hα : 0 < α) (hβ : 0 < β) {x : F64} {t : ℝ} (ht : 0 < t) (hx : x.Is t) :
    (InvGamma.cdf ⟨a, b⟩ x).val.Is ((1 - invGammaCDF α β t) / Real.Gamma α) := by
  have hG := Real.Gamma_pos_of_pos hα
  unfold InvGamma.cdf Probability.newUnchecked
  rw [invGammaCDF, if_neg (not_le.2 ht), sub_sub_cancel]
  exact (ha.gammainc (hb.div hx ht.ne') hα (by positivity)).div (ha.gamma hα) hG.ne'

/-- C141 (violated for all parameters): `cdf` is strictly decreasing on the support (it computes a multiple of the
complementary distribution function), so it is not a distribution function, and it is right at no more than one point. -/
theorem C141_inverse_gamma_cdf_violated (h : InvGamma.new a b = .ok g) (ha : a.Is α) (hb : b.Is β) {x y : F64} {s t : ℝ}
    (hs : 0 < s) (hst : s < t) (hx : x.Is s) (hy : y.Is t) :
    (g.cdf y).val < (g.cdf x).val ∧
    ¬ ((g.cdf x).val.Is (invGammaCDF α β s) ∧ (g.cdf y).val.Is (invGammaCDF α β t)) := by
  obtain ⟨h0, h1, rfl⟩ := InvGamma.new_ok.1 h
  have hα : 0 < α := pos_of_lt h0 ha
  have hβ : 0 < β := pos_of_lt h1 hb
  have hG := Real.Gamma_pos_of_pos hα
  have ht : 0 < t := hs.trans hst
  have c1 := InvGamma.cdf_is ha hb hα hβ hs hx
  have c2 := InvGamma.cdf_is ha hb hα hβ ht hy
  have hlt : (1 - invGammaCDF α β t) / Real.Gamma α < (1 - invGammaCDF α β s) / Real.Gamma α := by
    apply div_lt_div_of_pos_right _ hG
    rw [invGammaCDF, if_neg (not_le.2 ht), sub_sub_cancel, invGammaCDF, if_neg (not_le.2 hs), sub_sub_cancel]
    exact gammaP_strictMono hα (by positivity) (by gcongr)
  refine ⟨(c2.lt_iff c1).2 hlt, fun ⟨e1, e2⟩ => ?_⟩
  have q1 := c1.eq e1
  have q2 := c2.eq e2
  rw [q1, q2] at hlt
  exact absurd ((invGamma_density hα hβ).1.mono hst.le) (not_le.2 hlt)

/-- C141 (what holds): for shapes 1 and 2, `cdf` is the *complementary* distribution function. -/
theorem C141_inverse_gamma_cdf_partial (h : InvGamma.new a b = .ok g) (ha : a.Is α) (hb : b.Is β) (hs : α = 1 ∨ α = 2) :
    Computes (fun x => (g.cdf x).val) (fun x => 1 - invGammaCDF α β x) (Ioi 0) := by
  obtain ⟨h0, h1, rfl⟩ := InvGamma.new_ok.1 h
  have hα : 0 < α := pos_of_lt h0 ha
  have hβ : 0 < β := pos_of_lt h1 hb
  intro x t ht hx
  have := InvGamma.cdf_is ha hb hα hβ ht hx
  rwa [(Gamma_eq_one_iff hα).2 hs, div_one] at this

end

section
attribute [local instance] exactFP exactFP_exact
theorem erlang_ex : Erlang.new 3 (fin 2) = .ok ⟨3, fin 2⟩ := Erlang.new_ok.2 ⟨by norm_num, fin_lt_fin.2 (by norm_num), rfl⟩
example : ∃ y r, Erlang.pdf .debug ⟨3, fin 2⟩ (fin 1) = .ok y ∧ y.Is r ∧ 0 < gammaPDFReal (3:ℕ) 2 1 ∧
    2 * gammaPDFReal (3:ℕ) 2 1 < r :=
  C138_erlang_pdf_violated erlang_ex (Is.fin 2) .debug (by norm_num) (by norm_num) one_pos (Is.fin 1)
theorem invGamma_ex : InvGamma.new (fin 5) (fin 2) = .ok ⟨fin 5, fin 2⟩ :=
  InvGamma.new_ok.2 ⟨fin_lt_fin.2 (by norm_num), fin_lt_fin.2 (by norm_num), rfl⟩
example : ∃ s, Returns (InvGamma.skewness ⟨fin 5, fin 2⟩) s ∧ HasSkew (invGammaPDF 5 2) s :=
  (C140_inverse_gamma invGamma_ex (Is.fin 5) (Is.fin 2)).2.2.2.2.2.2.2.2.2.1 (by norm_num)
example : (InvGamma.cdf ⟨fin 5, fin 2⟩ (fin 2)).val < (InvGamma.cdf ⟨fin 5, fin 2⟩ (fin 1)).val :=
  (C141_inverse_gamma_cdf_violated invGamma_ex (Is.fin 5) (Is.fin 2) one_pos one_lt_two (Is.fin 1) (Is.fin 2)).1
end
end Rstat
