import Verif.Props.Dist.Erlang

/-! C268: `Erlang::log_pdf` and `Erlang::log_cdf`, the two methods the type overrides, and its defaults `pdf` and `cdf`. -/
namespace Rstat
open F64 Spec ProbabilityTheory
section
variable [FP]

/-- C268: at every f64, in both profiles, `pdf` returns the exponential of what `log_pdf` returns and panics exactly when it does; the same for
`cdf` and `log_cdf` -/
theorem C268_erlang_defaults (pr : Profile) (d : Erlang) (x : F64) :
    (∀ y, d.pdf pr x = .ok y ↔ ∃ z, d.logPdf pr x = .ok z ∧ y = z.exp) ∧ (∀ e, d.pdf pr x = .error e ↔ d.logPdf pr x = .error e) ∧
    (∀ y, d.cdf pr x = .ok y ↔ ∃ z, d.logCdf pr x = .ok z ∧ y.val = z.exp) ∧ (∀ e, d.cdf pr x = .error e ↔ d.logCdf pr x = .error e) := by
  unfold Erlang.pdf Erlang.cdf
  refine ⟨fun y => ?_, fun e => ?_, fun y => ?_, fun e => ?_⟩
  · cases h : d.logPdf pr x with
    | ok z =>
      constructor
      · intro g; cases g; exact ⟨z, rfl, rfl⟩
      · rintro ⟨w, h1, h2⟩; cases h1; subst h2; rfl
    | error e =>
      constructor
      · intro g; cases g
      · rintro ⟨w, h1, h2⟩; cases h1
  · cases h : d.logPdf pr x with
    | ok z =>
      constructor
      · intro g; cases g
      · intro g; cases g
    | error e =>
      constructor
      · intro g; cases g; rfl
      · intro g; cases g; rfl
  · cases h : d.logCdf pr x with
    | ok z =>
      constructor
      · intro g; cases g; exact ⟨z, rfl, rfl⟩
      · rintro ⟨w, h1, h2⟩; cases h1; cases y; cases h2; rfl
    | error e =>
      constructor
      · intro g; cases g
      · rintro ⟨w, h1, h2⟩; cases h1
  · cases h : d.logCdf pr x with
    | ok z =>
      constructor
      · intro g; cases g
      · intro g; cases g
    | error e =>
      constructor
      · intro g; cases g; rfl
      · intro g; cases g; rfl
end

section
variable [FP] [FP.Exact] {k : ℕ} {l : F64} {lam : ℝ} {d : Erlang}

/-- the value of `log_pdf` -/
theorem Erlang.logPdf_is (h : Erlang.new k l = .ok d) (hl : l.Is lam) (pr : Profile) {x : F64} {t : ℝ}
    (hk : k < 2 ^ 64) (hx : x.Is t) : ∃ (y : F64) (v : ℝ), d.logPdf pr x = .ok y ∧ |v - Real.log (k - 1).factorial| ≤ 1 / 10 ^ 6 ∧
      (k = 1 → v = 0) ∧ y.Is (k * Real.log lam + (k - 1) * t - lam * t - v) := by
  obtain ⟨h0, h1, rfl⟩ := Erlang.new_ok.1 h
  have hlam : 0 < lam := pos_of_lt h1 hl
  have key : ∀ (b : F64) (v : ℝ), logFactorialStirling pr (k - 1) = .ok b → b.Is v →
      ∃ y : F64, Erlang.logPdf pr ⟨k, l⟩ x = .ok y ∧ y.Is (k * Real.log lam + (k - 1) * t - lam * t - v) := by
    intro b v hb hv
    refine ⟨F64.ofNat k * l.ln + F64.ofNat (k - 1) * x - l * x - b, ?_, ?_⟩
    · unfold Erlang.logPdf
      dsimp only
      rw [usub_ok h0, exc_ok_bind, hb]; rfl
    · have hk1 : (F64.ofNat (k - 1)).Is ((k:ℝ) - 1) := (Is.ofNat _).congr (by rw [Nat.cast_sub h0]; simp)
      have hkn : (F64.ofNat k).Is k := Is.ofNat k
      exact (((hkn.mul (hl.ln hlam)).add (hk1.mul hx)).sub (hl.mul hx)).sub hv
  by_cases hk1 : k = 1
  · subst hk1
    obtain ⟨b, hb, hz⟩ := logFact_zero pr
    obtain ⟨y, h2, h3⟩ := key b 0 hb hz
    exact ⟨y, 0, h2, by simp, fun _ => rfl, h3⟩
  · obtain ⟨b, v, hb, hv, he⟩ := logFact_close pr (k - 1) (by omega)
    obtain ⟨y, h2, h3⟩ := key b v hb hv
    exact ⟨y, v, h2, he, fun h => absurd h hk1, h3⟩

/-- the value of `log_cdf` -/
theorem Erlang.logCdf_is (h : Erlang.new k l = .ok d) (hl : l.Is lam) (pr : Profile) {x : F64} {t : ℝ}
    (hk : k < 2 ^ 64 - 1) (ht : 0 < t) (hx : x.Is t) : ∃ (y : F64) (v : ℝ), d.logCdf pr x = .ok y ∧
      |v - Real.log k.factorial| ≤ 1 / 10 ^ 6 ∧ (k = 1 → v = 0) ∧ y.Is (Real.log (gammaCDF k lam t) - v) := by
  obtain ⟨h0, h1, rfl⟩ := Erlang.new_ok.1 h
  have hlam : 0 < lam := pos_of_lt h1 hl
  have hkp : (0:ℝ) < k := by exact_mod_cast h0
  have key : ∀ (b : F64) (v : ℝ), logFactorialStirling pr k = .ok b → b.Is v →
      ∃ y : F64, Erlang.logCdf pr ⟨k, l⟩ x = .ok y ∧ y.Is (Real.log (gammaCDF k lam t) - v) := by
    intro b v hb hv
    refine ⟨((F64.ofNat k).gammainc (l * x)).ln - b, ?_, ?_⟩
    · unfold Erlang.logCdf
      dsimp only
      rw [hb]; rfl
    · have hkn : (F64.ofNat k).Is k := Is.ofNat k
      have hp : 0 < gammaP k (lam * t) := gammaP_pos hkp (by positivity)
      rw [gammaCDF_pos_eq ht]
      exact ((hkn.gammainc (hl.mul hx) hkp (by positivity)).ln hp).sub hv
  by_cases hk1 : k = 1
  · subst hk1
    have hb : ∃ b : F64, logFactorialStirling pr 1 = .ok b ∧ b.Is 0 := by
      refine ⟨F64.lit ((0:ℕ) / 10 ^ 15), ?_, (Is.lit _).congr (by norm_num)⟩
      unfold logFactorialStirling
      rw [if_neg (by norm_num)]; rfl
    obtain ⟨b, hb, hz⟩ := hb
    obtain ⟨y, h2, h3⟩ := key b 0 hb hz
    exact ⟨y, 0, h2, by simp, fun _ => rfl, h3⟩
  · obtain ⟨b, v, hb, hv, he⟩ := logFact_close pr k hk
    obtain ⟨y, h2, h3⟩ := key b v hb hv
    exact ⟨y, v, h2, he, fun h => absurd h hk1, h3⟩

/-- C268 (violation, every k ≥ 2): at every `x > 0`, `log_pdf` is above the logarithm of the Erlang density by `(k - 1) (x - ln x)` up to `1e-6`
(the code multiplies `k - 1` by `x` instead of `ln x`), which is at least `k - 1` -/
theorem C268_erlang_log_pdf_violated (h : Erlang.new k l = .ok d) (hl : l.Is lam) (pr : Profile) {x : F64} {t : ℝ}
    (hk : 2 ≤ k) (hk' : k < 2 ^ 64) (ht : 0 < t) (hx : x.Is t) :
    ∃ y r, d.logPdf pr x = .ok y ∧ y.Is r ∧ |r - (Real.log (gammaPDFReal k lam t) + (k - 1) * (t - Real.log t))| ≤ 1 / 10 ^ 6 ∧
      Real.log (gammaPDFReal k lam t) + (k - 1) - 1 / 10 ^ 6 ≤ r := by
  obtain ⟨y, v, h1, h2, _, h3⟩ := Erlang.logPdf_is h hl pr hk' hx
  obtain ⟨h0, h1', rfl⟩ := Erlang.new_ok.1 h
  have hlam : 0 < lam := pos_of_lt h1' hl
  have e := erlang_log (k := k) h0 hlam ht
  have hlt := Real.log_le_sub_one_of_pos ht
  have hk2 : (2:ℝ) ≤ k := by exact_mod_cast hk
  have h4 : (k - 1) * 1 ≤ ((k:ℝ) - 1) * (t - Real.log t) := mul_le_mul_of_nonneg_left (by linarith) (by linarith)
  refine ⟨y, _, h1, h3, ?_, ?_⟩
  · rw [e]
    rw [show k * Real.log lam + (k - 1) * t - lam * t - v - (k * Real.log lam + (k - 1) * Real.log t - lam * t - Real.log (k - 1).factorial +
      (k - 1) * (t - Real.log t)) = -(v - Real.log (k - 1).factorial) by ring, abs_neg]
    exact h2
  · have := (abs_le.1 h2).2
    rw [e]; linarith

/-- C268 (what holds): with one stage `log_pdf` is the logarithm of the exponential density -/
theorem C268_erlang_log_pdf_partial (h : Erlang.new 1 l = .ok d) (hl : l.Is lam) (pr : Profile) {x : F64} {t : ℝ} (ht : 0 < t)
    (hx : x.Is t) : ∃ y, d.logPdf pr x = .ok y ∧ y.Is (Real.log (gammaPDFReal (1:ℕ) lam t)) := by
  obtain ⟨y, v, h1, _, h2, h3⟩ := Erlang.logPdf_is h hl pr (by norm_num) hx
  obtain ⟨h0, h1', rfl⟩ := Erlang.new_ok.1 h
  have hlam : 0 < lam := pos_of_lt h1' hl
  refine ⟨y, h1, h3.congr ?_⟩
  rw [erlang_log one_pos hlam ht, h2 rfl]
  simp

/-- C268 (violation, every k ≥ 2): at every `x > 0`, `log_cdf` is below the logarithm of the distribution function by `ln k!` up to `1e-6` (the
regularised incomplete gamma function is divided by `k!` once more) -/
theorem C268_erlang_log_cdf_violated (h : Erlang.new k l = .ok d) (hl : l.Is lam) (pr : Profile) {x : F64} {t : ℝ}
    (hk : 2 ≤ k) (hk' : k < 2 ^ 64 - 1) (ht : 0 < t) (hx : x.Is t) :
    ∃ y r, d.logCdf pr x = .ok y ∧ y.Is r ∧ |r - (Real.log (gammaCDF k lam t) - Real.log k.factorial)| ≤ 1 / 10 ^ 6 ∧
      r ≤ Real.log (gammaCDF k lam t) - 0.69 := by
  obtain ⟨y, v, h1, h2, _, h3⟩ := Erlang.logCdf_is h hl pr hk' ht hx
  have hfac : Real.log 2 ≤ Real.log k.factorial := by
    apply Real.log_le_log two_pos
    have : Nat.factorial 2 ≤ k.factorial := Nat.factorial_le hk
    exact_mod_cast this
  refine ⟨y, _, h1, h3, ?_, ?_⟩
  · rw [show Real.log (gammaCDF k lam t) - v - (Real.log (gammaCDF k lam t) - Real.log k.factorial) = -(v - Real.log k.factorial) by ring, abs_neg]
    exact h2
  · have := (abs_le.1 h2).1
    have l2 := Real.log_two_gt_d9
    norm_num at l2 this ⊢
    linarith

/-- C268 (what holds): with one stage `log_cdf` is the logarithm of the exponential distribution function -/
theorem C268_erlang_log_cdf_partial (h : Erlang.new 1 l = .ok d) (hl : l.Is lam) (pr : Profile) {x : F64} {t : ℝ} (ht : 0 < t)
    (hx : x.Is t) : ∃ y, d.logCdf pr x = .ok y ∧ y.Is (Real.log (gammaCDF (1:ℕ) lam t)) := by
  obtain ⟨y, v, h1, _, h2, h3⟩ := Erlang.logCdf_is h hl pr (by norm_num) ht hx
  refine ⟨y, h1, h3.congr ?_⟩
  rw [h2 rfl]; simp
end

section
attribute [local instance] exactFP exactFP_exact
example : ∃ y r, Erlang.logPdf .debug ⟨3, fin 2⟩ (fin 1) = .ok y ∧ y.Is r ∧ Real.log (gammaPDFReal (3:ℕ) 2 1) + 1.9 ≤ r := by
  obtain ⟨y, r, h1, h2, _, h3⟩ := C268_erlang_log_pdf_violated (k := 3) (Erlang.new_ok.2 ⟨by norm_num, lt_of_pos (by norm_num : (0:ℝ) < 2) (Is.fin _), rfl⟩)
    (Is.fin 2) .debug (by norm_num) (by norm_num) one_pos (Is.fin 1)
  exact ⟨y, r, h1, h2, by norm_num at h3 ⊢; linarith⟩
example : ∃ y r, Erlang.logCdf .release ⟨2, fin 2⟩ (fin 1) = .ok y ∧ y.Is r ∧ r ≤ Real.log (gammaCDF (2:ℕ) 2 1) - 0.69 := by
  obtain ⟨y, r, h1, h2, _, h3⟩ := C268_erlang_log_cdf_violated (k := 2) (Erlang.new_ok.2 ⟨by norm_num, lt_of_pos (by norm_num : (0:ℝ) < 2) (Is.fin _), rfl⟩)
    (Is.fin 2) .release le_rfl (by norm_num) one_pos (Is.fin 1)
  exact ⟨y, r, h1, h2, h3⟩
example : ∃ y, Erlang.logPdf .debug ⟨1, fin 2⟩ (fin 1) = .ok y ∧ y.Is (Real.log (gammaPDFReal (1:ℕ) 2 1)) :=
  C268_erlang_log_pdf_partial (Erlang.new_ok.2 ⟨one_pos, lt_of_pos (by norm_num : (0:ℝ) < 2) (Is.fin _), rfl⟩) (Is.fin 2) .debug one_pos (Is.fin 1)
example : ∃ y, Erlang.logCdf .debug ⟨1, fin 2⟩ (fin 1) = .ok y ∧ y.Is (Real.log (gammaCDF (1:ℕ) 2 1)) :=
  C268_erlang_log_cdf_partial (Erlang.new_ok.2 ⟨one_pos, lt_of_pos (by norm_num : (0:ℝ) < 2) (Is.fin _), rfl⟩) (Is.fin 2) .debug one_pos (Is.fin 1)
end
end Rstat
