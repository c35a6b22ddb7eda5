import Verif.Props.Traits
import Verif.Props.FloatAccuracy8

/-! C272: the provided (default) trait methods in floating point: what an implementor computes accurately in one method
of a pair, the user gets accurately from the other. -/
set_option linter.unusedSectionVars false
namespace Rstat
open F64 Spec

section
variable [FP] [FP.Lawful] [FP.Libm] [FP.Accurate] {X : Type}

theorem rel_of_close {a : F64} {t : ℝ} {k n : ℕ} (h : RelClose a t (n / 2 ^ 52)) (h0 : 0 < t) (h1 : 1 / 2 ^ k ≤ t) (h2 : t ≤ 2 ^ k) :
    Rel a t k n := by
  rw [← abs_of_pos h0] at h1 h2
  exact ⟨h1, h2, h⟩

theorem close_of_rel {a : F64} {t : ℝ} {k n : ℕ} (h : Rel a t k n) : RelClose a t (n / 2 ^ 52) := h.2.2

theorem pow_inv_pos {t : ℝ} {k : ℕ} (h1 : 1 / 2 ^ k ≤ t) : 0 < t := lt_of_lt_of_le (by positivity) h1

/-- C272: when only `variance` is implemented, `standard_deviation` is its square root up to one more unit in the last place -/
theorem C272_standard_deviation {v s : F64} {t : ℝ} {n : ℕ} (hn : n ≤ 1000000) (h : RelClose v t (n / 2 ^ 52))
    (h1 : 1 / 2 ^ 900 ≤ t) (h2 : t ≤ 2 ^ 900) (hs : (variancePair (some v) none).RetB () s) :
    RelClose s (√t) ((n + 1) / 2 ^ 52) := by
  rw [(variancePair (some v) none).retB_iff_dflt rfl rfl] at hs
  subst hs
  have := close_of_rel ((rel_of_close h (pow_inv_pos h1) h1 h2).sqrt (pow_inv_pos h1) le_rfl hn)
  push_cast at this
  exact this

/-- C272: when only `standard_deviation` is implemented, `variance` is its square, with twice the relative error and one unit -/
theorem C272_variance {v s : F64} {t : ℝ} {n : ℕ} (hn : n ≤ 500000) (h : RelClose s t (n / 2 ^ 52))
    (h1 : 1 / 2 ^ 450 ≤ t) (h2 : t ≤ 2 ^ 450) (hv : (variancePair none (some s)).RetA () v) :
    RelClose v (t ^ 2) ((2 * n + 1) / 2 ^ 52) := by
  rw [(variancePair none (some s)).retA_iff_dflt rfl rfl] at hv
  subst hv
  have r := rel_of_close h (pow_inv_pos h1) h1 h2
  have := close_of_rel (r.mul r (by norm_num) (by omega))
  push_cast at this
  rw [show (n:ℝ) + n + 1 = 2 * n + 1 by ring, ← sq] at this
  exact this

/-- C272: when only `excess_kurtosis` is implemented, `kurtosis` is three more -/
theorem C272_kurtosis {k e : F64} {t ε : ℝ} (h : AbsClose e t ε) (hM : |t| + ε ≤ 2 ^ 100)
    (hk : (kurtosisPair none (some e)).RetA () k) : AbsClose k (t + 3) (ε + (|t| + ε + 4) / 2 ^ 53) := by
  rw [(kurtosisPair none (some e)).retA_iff_dflt rfl rfl] at hk
  subst hk
  have a : |t + 3| ≤ |t| + 3 := (abs_add_le _ _).trans (by norm_num)
  have e0 : 0 ≤ ε := by obtain ⟨y, -, hy⟩ := h; exact (abs_nonneg _).trans hy
  exact Within.add (|t| + 3) h (Within.exact (Is.num 3)) a (by norm_num; linarith) (by norm_num at hM ⊢; linarith)

/-- C272: when only `kurtosis` is implemented, `excess_kurtosis` is three less -/
theorem C272_excess_kurtosis {k e : F64} {t ε : ℝ} (h : AbsClose k t ε) (hM : |t| + ε ≤ 2 ^ 100)
    (he : (kurtosisPair (some k) none).RetB () e) : AbsClose e (t - 3) (ε + (|t| + ε + 4) / 2 ^ 53) := by
  rw [(kurtosisPair (some k) none).retB_iff_dflt rfl rfl] at he
  subst he
  have a : |t - 3| ≤ |t| + 3 := (abs_sub _ _).trans (by norm_num)
  have e0 : 0 ≤ ε := by obtain ⟨y, -, hy⟩ := h; exact (abs_nonneg _).trans hy
  exact Within.sub (|t| + 3) h (Within.exact (Is.num 3)) a (by norm_num; linarith) (by norm_num at hM ⊢; linarith)

/-- C272: the default `ccdf` is the complement of `cdf` up to one rounding -/
theorem C272_ccdf (d : DistImpl X) (hc : d.ccdf? = none) (x : X) (p q : Probability) {G ε : ℝ} (h0 : 0 ≤ G) (h1 : G ≤ 1)
    (hε : ε ≤ 1) (hp : Rets d.cdf x p) (h : AbsClose p.val G ε) (hq : Rets d.ccdf x q) :
    AbsClose q.val (1 - G) (ε + 1 / 2 ^ 51) := by
  rw [d.ccdf_ret hc] at hq
  obtain ⟨p', hp', rfl⟩ := hq
  obtain ⟨n, hn⟩ := hp; obtain ⟨m, hm⟩ := hp'
  obtain rfl : p = p' := MethodPair.RetA.unique (m := cdfPair d.cdf? d.logCdf?) ⟨n, hn⟩ ⟨m, hm⟩
  have a : |1 - G| ≤ 1 := abs_le.2 ⟨by linarith, by linarith⟩
  have e0 : 0 ≤ ε := by obtain ⟨y, -, hy⟩ := h; exact (abs_nonneg _).trans hy
  exact Within.sub 1 (Within.exact Is.one) h a (by norm_num; linarith) (by norm_num; linarith)

/-- the logarithm of a number known to a relative error -/
theorem ln_of_close {a : F64} {t : ℝ} {k n : ℕ} (hk : k ≤ 1000) (hn : n ≤ 1000000) (h : RelClose a t (n / 2 ^ 52))
    (h1 : 1 / 2 ^ k ≤ t) (h2 : t ≤ 2 ^ k) : AbsClose a.ln (Real.log t) ((2 * n + 2 * k + 3) / 2 ^ 52) := by
  have := ((rel_of_close h (pow_inv_pos h1) h1 h2).ln_abs (pow_inv_pos h1) hk hn).2
  push_cast at this
  exact this

/-- C272: the default `log_pdf`, `log_pmf`, `log_cdf` and `log_likelihood` are the logarithms of `pdf`, `pmf`, `cdf` and
`likelihood`: a relative error in the one is an absolute error in the other -/
theorem C272_logarithms {k n : ℕ} (hk : k ≤ 1000) (hn : n ≤ 1000000) {t : ℝ} (h1 : 1 / 2 ^ k ≤ t) (h2 : t ≤ 2 ^ k) (x : X) (xs : List X) (l : F64) :
    (∀ f : X → F64, RelClose (f x) t (n / 2 ^ 52) → (pdfPair (some f) none).RetB x l →
      AbsClose l (Real.log t) ((2 * n + 2 * k + 3) / 2 ^ 52)) ∧
    (∀ F : X → Probability, RelClose (F x).val t (n / 2 ^ 52) → (pmfPair (some F) none).RetB x l →
      AbsClose l (Real.log t) ((2 * n + 2 * k + 3) / 2 ^ 52)) ∧
    (∀ F : X → Probability, RelClose (F x).val t (n / 2 ^ 52) → (cdfPair (some F) none).RetB x l →
      AbsClose l (Real.log t) ((2 * n + 2 * k + 3) / 2 ^ 52)) ∧
    (∀ f : List X → F64, RelClose (f xs) t (n / 2 ^ 52) → (likelihoodPair (some f) none).RetB xs l →
      AbsClose l (Real.log t) ((2 * n + 2 * k + 3) / 2 ^ 52)) := by
  refine ⟨fun f hf hl => ?_, fun f hf hl => ?_, fun f hf hl => ?_, fun f hf hl => ?_⟩
  · rw [(pdfPair (some f) none).retB_iff_dflt rfl rfl] at hl
    subst hl; exact ln_of_close hk hn hf h1 h2
  · rw [(pmfPair (some f) none).retB_iff_dflt rfl rfl] at hl
    subst hl; exact ln_of_close hk hn hf h1 h2
  · rw [(cdfPair (some f) none).retB_iff_dflt rfl rfl] at hl
    subst hl; exact ln_of_close hk hn hf h1 h2
  · rw [(likelihoodPair (some f) none).retB_iff_dflt rfl rfl] at hl
    subst hl; exact ln_of_close hk hn hf h1 h2

/-- the exponential of a number known to an absolute error -/
theorem exp_of_close {l : F64} {t ε : ℝ} (h : AbsClose l t ε) (hε : ε ≤ 1 / 2) (ht : t ≤ 700) :
    AbsClose l.exp (Real.exp t) ((2 * ε + 1 / 2 ^ 50) * Real.exp t + 1 / 2 ^ 120) := by
  obtain ⟨Z, hZ, hz⟩ := h
  have E0 := Real.exp_pos t
  have e0 : 0 ≤ ε := (abs_nonneg _).trans hz
  have k1 : |Real.exp (Z - t) - 1| ≤ 2 * ε := by
    have := Real.abs_exp_sub_one_le (x := Z - t) (by linarith)
    linarith
  have k2 : |Real.exp Z - Real.exp t| ≤ 2 * ε * Real.exp t := by
    rw [show Real.exp Z - Real.exp t = (Real.exp (Z - t) - 1) * Real.exp t by rw [sub_mul, ← Real.exp_add, sub_add_cancel, one_mul],
      abs_mul, abs_of_pos E0]
    gcongr
  have k3 : Real.exp Z ≤ 2 * Real.exp t := by
    have := (abs_le.1 k2).2
    nlinarith
  rcases exp_at hZ with ⟨E, hE, -, hE2⟩ | ⟨-, hb⟩
  · refine ⟨E, hE, ?_⟩
    have := abs_add_le (E - Real.exp Z) (Real.exp Z - Real.exp t)
    rw [sub_add_sub_cancel] at this
    have : Real.exp Z / 2 ^ 51 ≤ 2 * Real.exp t / 2 ^ 51 := by gcongr
    have e2 : 2 * Real.exp t / 2 ^ 51 = 1 / 2 ^ 50 * Real.exp t := by ring
    nlinarith
  · exfalso
    have b1 : Real.exp t ≤ (2:ℝ) ^ 1020 := by
      refine (Real.exp_le_exp.2 ht).trans ?_
      have l2 := Real.log_two_gt_d9
      rw [← Real.exp_log (by positivity : (0:ℝ) < 2 ^ 1020), Real.exp_le_exp, Real.log_pow]
      push_cast
      linarith
    have b2 : (2:ℝ) ^ 1021 = 2 * 2 ^ 1020 := pow_succ' 2 1020
    rw [b2] at hb
    have b3 : Real.exp Z < 2 * Real.exp t := by
      have := (abs_le.1 k2).2
      have : Real.exp (Z - t) ≤ Real.exp (1 / 2) := Real.exp_le_exp.2 (by have := (abs_le.1 hz).2; linarith)
      have e3 : Real.exp (1 / 2) < 2 := by
        have h1 := Real.exp_one_lt_d9
        have h2 : Real.exp (1 / 2) ^ 2 = Real.exp 1 := by rw [← Real.exp_nat_mul]; norm_num
        have := Real.exp_pos (1 / 2)
        nlinarith
      have e4 : Real.exp Z = Real.exp (Z - t) * Real.exp t := by rw [← Real.exp_add, sub_add_cancel]
      rw [e4]
      have : Real.exp (Z - t) < 2 := by linarith
      gcongr
    generalize (2:ℝ) ^ 1020 = B at *
    linarith

/-- C272: the default `pdf`, `pmf`, `cdf` and `likelihood` are the exponentials of `log_pdf`, `log_pmf`, `log_cdf` and
`log_likelihood`: an absolute error in the one is a relative error in the other -/
theorem C272_exponentials {t ε : ℝ} (hε : ε ≤ 1 / 2) (ht : t ≤ 700) (x : X) (xs : List X) :
    (∀ (g : X → F64) (y : F64), AbsClose (g x) t ε → (pdfPair none (some g)).RetA x y →
      AbsClose y (Real.exp t) ((2 * ε + 1 / 2 ^ 50) * Real.exp t + 1 / 2 ^ 120)) ∧
    (∀ (g : X → F64) (p : Probability), AbsClose (g x) t ε → (pmfPair none (some g)).RetA x p →
      AbsClose p.val (Real.exp t) ((2 * ε + 1 / 2 ^ 50) * Real.exp t + 1 / 2 ^ 120)) ∧
    (∀ (g : X → F64) (p : Probability), AbsClose (g x) t ε → (cdfPair none (some g)).RetA x p →
      AbsClose p.val (Real.exp t) ((2 * ε + 1 / 2 ^ 50) * Real.exp t + 1 / 2 ^ 120)) ∧
    (∀ (g : List X → F64) (y : F64), AbsClose (g xs) t ε → (likelihoodPair none (some g)).RetA xs y →
      AbsClose y (Real.exp t) ((2 * ε + 1 / 2 ^ 50) * Real.exp t + 1 / 2 ^ 120)) := by
  refine ⟨fun g y hg hy => ?_, fun g y hg hy => ?_, fun g y hg hy => ?_, fun g y hg hy => ?_⟩
  · rw [(pdfPair none (some g)).retA_iff_dflt rfl rfl] at hy
    subst hy; exact exp_of_close hg hε ht
  · rw [(pmfPair none (some g)).retA_iff_dflt rfl rfl] at hy
    subst hy; exact exp_of_close hg hε ht
  · rw [(cdfPair none (some g)).retA_iff_dflt rfl rfl] at hy
    subst hy; exact exp_of_close hg hε ht
  · rw [(likelihoodPair none (some g)).retA_iff_dflt rfl rfl] at hy
    subst hy; exact exp_of_close hg hε ht

/-- C272: when only the squared Mahalanobis distance is implemented, the distance is its square root up to one more unit -/
theorem C272_mahalanobis {g : X → F64} {x : X} {y : F64} {t : ℝ} {n : ℕ} (hn : n ≤ 1000000) (h : RelClose (g x) t (n / 2 ^ 52))
    (h1 : 1 / 2 ^ 900 ≤ t) (h2 : t ≤ 2 ^ 900) (hy : (mahalanobisPair none (some g)).RetA x y) :
    RelClose y (√t) ((n + 1) / 2 ^ 52) := by
  rw [(mahalanobisPair none (some g)).retA_iff_dflt rfl rfl] at hy
  subst hy
  have := close_of_rel ((rel_of_close h (pow_inv_pos h1) h1 h2).sqrt (pow_inv_pos h1) le_rfl hn)
  push_cast at this
  exact this

/-- C272: the interquartile range and the fences computed from accurate quartiles are accurate -/
theorem C272_fences (Q : Probability → F64) {q1 q3 M ε : ℝ} (h1 : AbsClose (Q ⟨fin (1 / 4)⟩) q1 ε) (h3 : AbsClose (Q ⟨fin (3 / 4)⟩) q3 ε)
    (m1 : |q1| ≤ M) (m3 : |q3| ≤ M) (hε : ε ≤ M) (hM : M ≤ 2 ^ 100) :
    AbsClose (iqr Q) (q3 - q1) (2 * ε + M / 2 ^ 50 + 1 / 2 ^ 119) ∧
    AbsClose (lowerFence Q) (q1 - 3 / 2 * (q3 - q1)) (4 * ε + M / 2 ^ 48 + 1 / 2 ^ 117) ∧
    AbsClose (upperFence Q) (q3 + 3 / 2 * (q3 - q1)) (4 * ε + M / 2 ^ 48 + 1 / 2 ^ 117) := by
  have e0 : 0 ≤ ε := by obtain ⟨y, -, hy⟩ := h1; exact (abs_nonneg _).trans hy
  have M0 : 0 ≤ M := (abs_nonneg _).trans m1
  obtain ⟨a1, a2⟩ := abs_le.1 m1
  obtain ⟨b1, b2⟩ := abs_le.1 m3
  have d : |q3 - q1| ≤ 2 * M := abs_le.2 ⟨by linarith, by linarith⟩
  norm_num at hM
  have i : Within (iqr Q) (q3 - q1) (2 * ε + M / 2 ^ 51 + 1 / 2 ^ 120) :=
    Within.sub (2 * M) h3 h1 d (by norm_num; linarith) (by norm_num; linarith)
  have f : Within (F64.fin (3 / 2) * iqr Q) (3 / 2 * (q3 - q1)) (3 * ε + 3 / 2 * (M / 2 ^ 51) + M * 8 / 2 ^ 53 + 4 / 2 ^ 120) := by
    refine Within.mul (3 / 2) (2 * M) (Within.exact (.fin _)) i (by norm_num) d ?_ ?_ <;> norm_num <;> linarith
  refine ⟨i.mono (by norm_num; linarith), ?_, ?_⟩
  · refine Within.sub (4 * M) h1 f (abs_le.2 ⟨by linarith, by linarith⟩) ?_ ?_ <;> norm_num <;> linarith
  · refine Within.add (4 * M) h3 f (abs_le.2 ⟨by linarith, by linarith⟩) ?_ ?_ <;> norm_num <;> linarith


/-- C272: so the default `ccdf` of a distribution whose `cdf` is accurate is accurate too -/
theorem C272_ccdf_accurate {F : F64 → Probability} {G : ℝ → ℝ} {S : Set ℝ} {ε : ℝ} (hF : AccurateCDF F G S ε) (hε : ε ≤ 1)
    (hG : ∀ r, 0 ≤ G r ∧ G r ≤ 1) (lc : Option (F64 → F64)) (H : F64 → Probability)
    (hH : ∀ x, Rets (DistImpl.ccdf ⟨some F, none, none, lc⟩) x (H x)) : AccurateCDF H (fun r => 1 - G r) S (ε + 1 / 2 ^ 51) := by
  intro x r fx hx hr
  exact C272_ccdf ⟨some F, none, none, lc⟩ rfl x (F x) (H x) (hG r).1 (hG r).2 hε
    (((cdfPair (some F) none).retA_iff_over rfl x _).2 rfl) (hF x r fx hx hr) (hH x)

/-! ### C273: the tail -/

/-- C273 (part): where the tail probability is at least `2^-k`, the default `ccdf` has relative error `(n+2)·2^k` units, and the
default `log_ccdf` is correspondingly accurate (see `C273_exponential_violated` for smaller tails) -/
theorem C273_tail_partial (d : DistImpl X) (hc : d.ccdf? = none) (hl : d.logCcdf? = none) (x : X) (p q : Probability) (l : F64)
    {G : ℝ} {k n : ℕ} (h0 : 0 ≤ G) (h1 : 1 / 2 ^ k ≤ 1 - G) (hn : (n + 2) * 2 ^ k ≤ 1000000)
    (hp : Rets d.cdf x p) (h : AbsClose p.val G (n / 2 ^ 52)) (hq : Rets d.ccdf x q) (hlq : Rets d.logCcdf x l) :
    RelClose q.val (1 - G) (((n + 2) * 2 ^ k : ℕ) / 2 ^ 52) ∧
    AbsClose l (Real.log (1 - G)) ((2 * ((n + 2) * 2 ^ k : ℕ) + 2 * k + 3) / 2 ^ 52) := by
  have k0 : (0:ℝ) < 1 / 2 ^ k := by positivity
  have p1 : 1 ≤ 2 ^ k := Nat.one_le_two_pow
  have n1 : n ≤ 1000000 := by nlinarith
  have n1' : (n:ℝ) ≤ 1000000 := by exact_mod_cast n1
  have a := C272_ccdf d hc x p q h0 (by linarith) (by rw [div_le_one (by positivity)]; norm_num; linarith) hp h hq
  have r : RelClose q.val (1 - G) (((n + 2) * 2 ^ k : ℕ) / 2 ^ 52) := by
    obtain ⟨y, hy, hye⟩ := a
    refine ⟨y, hy, hye.trans ?_⟩
    rw [abs_of_pos (show 0 < 1 - G by linarith)]
    push_cast
    have : ((n:ℝ) + 2) * 2 ^ k / 2 ^ 52 * (1 / 2 ^ k) ≤ (n + 2) * 2 ^ k / 2 ^ 52 * (1 - G) := by gcongr
    refine le_trans (le_of_eq ?_) this
    field_simp
  refine ⟨r, ?_⟩
  rw [d.logCcdf_ret hl] at hlq
  obtain ⟨q', hq', rfl⟩ := hlq
  obtain ⟨p1', e1, e1'⟩ := (d.ccdf_ret hc x q).1 hq
  obtain ⟨p2', e2, e2'⟩ := (d.ccdf_ret hc x q').1 hq'
  obtain rfl : p1' = p2' := MethodPair.RetA.unique e1 e2
  obtain rfl : q = q' := by rw [e1', e2']
  have kk : k ≤ 1000 := by
    have : k < 2 ^ k := Nat.lt_two_pow_self
    by_contra hk
    have h2 : 2 ^ 20 ≤ 2 ^ k := Nat.pow_le_pow_right (by norm_num) (by omega)
    nlinarith
  exact ln_of_close kk hn r h1 (le_trans (by linarith) (one_le_pow₀ (by norm_num)))

end

section
open B64
attribute [local instance] binary64 binary64_lawful B64.libm B64.specialFns B64.accurate

theorem rnd_one_sub {p : ℝ} (h0 : 0 ≤ p) (h : p ≤ 1 / 2 ^ 55) : rnd (1 - p) = 1 := by
  rcases h0.eq_or_lt with rfl | h0
  · rw [sub_zero]; exact F64.rnd_one
  have h1 : p * 2 ^ 53 ≤ 1 / 4 := by
    calc p * 2 ^ 53 ≤ 1 / 2 ^ 55 * 2 ^ 53 := by gcongr
      _ = _ := by norm_num
  have := rnd_eq (x := 1 - p) (2 ^ 53) (-53) (by norm_num) (by norm_num; norm_num at h; linarith) (by norm_num; exact h0) (by
    have : (1 - p) / 2 ^ (-53:ℤ) - ((2 ^ 53 : ℤ) : ℝ) = -(p * 2 ^ 53) := by
      rw [zpow_neg, div_inv_eq_mul]; push_cast; norm_num; ring
    rw [this, abs_neg, abs_of_nonneg (by positivity)]; linarith)
  rw [this]
  rw [zpow_neg]; push_cast; norm_num

/-- the exponential of anything not above -40 is at most `2^-55` -/
theorem exp_tail {z : F64} {t : ℝ} (e : z.ext = (F64.round (-t)).ext) (h : 40 ≤ t) : ∃ E, z.exp.Is E ∧ 0 ≤ E ∧ E ≤ 1 / 2 ^ 55 := by
  have k40 : FP.rnd (-40 : ℝ) = -40 := by
    have : rnd (40:ℝ) = 40 := by exact_mod_cast rnd_natCast 40 (by norm_num)
    rw [FP.Lawful.rnd_neg]; exact congrArg _ this
  have i40 : (F64.round (-40)).Is (-40) := by
    have := F64.round_is (r := -40) (by rw [k40]; exact FP.Lawful.not_huge _ (by
      rw [abs_neg, abs_of_pos (by norm_num : (0:ℝ) < 40)]
      calc (40:ℝ) ≤ 2 ^ 6 := by norm_num
        _ ≤ 2 ^ 1023 := pow_le_pow_right₀ (by norm_num) (by norm_num)))
    rwa [k40] at this
  have l1 : F64.round (-t) ≤ F64.round (-40) := round_mono (by linarith)
  have l2 : z ≤ F64.round (-40) := le_congr e.symm rfl l1
  have l3 := exp_mono l2
  have e40 : Real.exp (-40) ≤ 1 / 2 ^ 57 := by
    have l2 := Real.log_two_lt_d9
    rw [← Real.exp_log (by positivity : (0:ℝ) < 1 / 2 ^ 57), Real.exp_le_exp, one_div, Real.log_inv, Real.log_pow]
    push_cast
    linarith
  rcases exp_at i40 with ⟨E, hE, E0, hE2⟩ | ⟨-, hb⟩
  · have E1 : E ≤ 1 / 2 ^ 55 := by
      have := (abs_le.1 hE2).2
      norm_num at this e40 ⊢
      linarith
    rcases nonneg_cases (exp_nonneg (le_cases.1 l2).1) with hp | ⟨E', hE', E'0⟩
    · rw [hp] at l3
      obtain ⟨-, -, h3⟩ := le_cases.1 l3
      rcases h3 with h3 | h3 | ⟨r, -, h3, -⟩
      · cases h3
      · rw [h3] at hE; rcases hE with h3 | ⟨h3, -⟩ <;> cases h3
      · rcases h3 with h3 | ⟨h3, -⟩ <;> cases h3
    · exact ⟨E', hE', E'0, ((hE'.le_iff hE).1 l3).trans E1⟩
  · exfalso
    have : (2:ℝ) ^ 0 ≤ 2 ^ 1021 := pow_le_pow_right₀ (by norm_num) (by norm_num)
    norm_num at e40
    generalize (2:ℝ) ^ 1021 = B at *
    linarith


theorem one_sub_absorb {a : F64} {p : ℝ} (ha : a.Is p) (h0 : 0 ≤ p) (h : p ≤ 1 / 2 ^ 55) : (1 : F64) - a = fin 1 :=
  sub_val ha (rnd_one_sub h0 h) one1024 one_ne_zero

theorem not_one : (fin 1 : F64) = 1 := rfl

/-- C273 in binary64: for an exponential distribution the tail is lost far too early: at every `x` with `λ·x ≥ 40` (and no overflow
is needed: up to `λ·x = 700` the true tail `exp(-λ·x)` is an ordinary number) `cdf` is exactly 1, the default `ccdf` exactly 0, and
the default `log_ccdf` is `-inf` instead of `-λ·x` -/
theorem C273_exponential_violated {a x : F64} {l r : ℝ} {d : Exponential} (h : Exponential.new a = .ok d) (ha : a.Is l) (hx : x.Is r)
    (ht : 40 ≤ l * r) (lg : Option (F64 → F64)) :
    let D : DistImpl F64 := ⟨some d.cdf, lg, none, none⟩
    Rets D.ccdf x ⟨fin 0⟩ ∧ Rets D.logCcdf x ninf ∧ 1 - expCDF l r = Real.exp (-(l * r)) ∧
    ¬ RelClose (fin 0) (1 - expCDF l r) (1 / 2) ∧ ∀ ε, ¬ AbsClose ninf (-(l * r)) ε := by
  obtain ⟨h0, rfl⟩ := Exponential.new_ok.1 h
  have hl := pos_of_lt h0 ha
  intro D
  have e := mul_fin_ext ha.neg hx
  rw [neg_mul] at e
  obtain ⟨E, hE, E0, E1⟩ := exp_tail e ht
  have c : (Exponential.cdf ⟨a⟩ x) = ⟨fin 1⟩ := congrArg Probability.mk (one_sub_absorb hE E0 E1)
  have c1 : Rets D.cdf x ⟨fin 1⟩ := by
    rw [D.cdf_ret, (cdfPair D.cdf? D.logCdf?).retA_iff_over (f := Exponential.cdf ⟨a⟩) rfl, c]
  have n1 : (Probability.mk (fin 1)).not = ⟨fin 0⟩ := congrArg Probability.mk (sub_self_fin one_ne_zero)
  have c2 : Rets D.ccdf x ⟨fin 0⟩ := (D.ccdf_ret rfl x _).2 ⟨_, c1, n1.symm⟩
  have r0 : 0 < r := by by_contra hr; nlinarith
  have s : 1 - expCDF l r = Real.exp (-(l * r)) := by
    unfold expCDF; rw [if_neg (not_le.2 r0)]; ring
  refine ⟨c2, (D.logCcdf_ret rfl x _).2 ⟨_, c2, (ln_zero (Is.fin 0)).symm⟩, s, ?_, ?_⟩
  · exact not_close_zero (Is.fin 0) (by rw [s]; exact Real.exp_pos _)
  · rintro ε ⟨y, hy, -⟩
    rcases hy with hy | ⟨hy, -⟩ <;> cases hy

/-- C273 in binary64: the same for the logistic distribution, wherever the computed `x - mu` is at least forty scale units -/
theorem C273_logistic_violated {a b x : F64} {m r s y : ℝ} {d : Logistic} (h : Logistic.new a b = .ok d) (hb : b.Is s)
    (hy : (x - a).Is y) (ht : 40 ≤ y / s) (lg : Option (F64 → F64)) :
    let D : DistImpl F64 := ⟨some d.cdf, lg, none, none⟩
    Rets D.ccdf x ⟨fin 0⟩ ∧ Rets D.logCcdf x ninf ∧ 0 < 1 - logisticCDF m s r ∧ ¬ RelClose (fin 0) (1 - logisticCDF m s r) (1 / 2) := by
  obtain ⟨h0, rfl⟩ := Logistic.new_ok.1 h
  have hs := pos_of_lt h0 hb
  intro D
  have e := div_fin_ext hy hb hs.ne'
  have nn : (x - a) / b ≠ nan := by intro hn; rw [hn] at e; exact round_ne_nan _ (by
    cases hq : F64.round (y / s) <;> rw [hq] at e <;> simp [F64.ext] at e)
  have e' : (-((x - a) / b)).ext = (F64.round (-(y / s))).ext := (neg_ext nn e).trans (round_neg_ext _).symm
  obtain ⟨E, hE, E0, E1⟩ := exp_tail e' ht
  have k : (1 : F64) + (-((x - a) / b)).exp = fin 1 := by
    have := add_ext Is.one hE
    rw [round_val (v := 1) (rnd_one_add E0 (by norm_num at E1 ⊢; linarith)) one1024 one_ne_zero] at this
    have := Is.of_ext (Is.fin 1) this.symm
    rcases this with this | ⟨-, this⟩
    · exact this
    · norm_num at this
  have c : (Logistic.cdf ⟨a, b⟩ x) = ⟨fin 1⟩ := by
    unfold Logistic.cdf Logistic.z
    dsimp only
    rw [k]
    exact congrArg Probability.mk (div_val one_ne_zero (by rw [div_one]; exact F64.rnd_one) one1024 one_ne_zero)
  have c1 : Rets D.cdf x ⟨fin 1⟩ := by
    rw [D.cdf_ret, (cdfPair D.cdf? D.logCdf?).retA_iff_over (f := Logistic.cdf ⟨a, b⟩) rfl, c]
  have n1 : (Probability.mk (fin 1)).not = ⟨fin 0⟩ := congrArg Probability.mk (sub_self_fin one_ne_zero)
  have c2 : Rets D.ccdf x ⟨fin 0⟩ := (D.ccdf_ret rfl x _).2 ⟨_, c1, n1.symm⟩
  have pos : 0 < 1 - logisticCDF m s r := by
    unfold logisticCDF
    have := Real.exp_pos (-(r - m) / s)
    rw [sub_pos, div_lt_one (by linarith)]
    linarith
  exact ⟨c2, (D.logCcdf_ret rfl x _).2 ⟨_, c2, (ln_zero (Is.fin 0)).symm⟩, pos, not_close_zero (Is.fin 0) pos⟩

/-- the full claim: wherever the tail probability is an ordinary number the default `ccdf` has a small relative error -/
def C273_full : Prop := ∀ (F : F64 → Probability) (G : ℝ → ℝ), AccurateCDF F G (Set.Ici 0) (1 / 2 ^ 47) →
  ∀ (x : F64) (r : ℝ) (q : Probability), IsF64 x → x.Is r → 0 ≤ r → 1 / 2 ^ 900 ≤ 1 - G r →
    Rets (DistImpl.ccdf ⟨some F, none, none, none⟩) x q → RelClose q.val (1 - G r) (1 / 2)

/-- C273: the full claim fails in binary64, already for the standard exponential distribution at 50 -/
theorem C273_violated : ¬ C273_full := by
  intro hf
  have hd : Exponential.new (fin 1) = .ok ⟨fin 1⟩ := Exponential.new_ok.2 ⟨lt_of_pos (by norm_num) (.fin _), rfl⟩
  obtain ⟨c, -, e, n, -⟩ := C273_exponential_violated hd (.fin 1) (.fin 50) (by norm_num) none
  refine n (hf _ _ (C251_exponential hd (.fin 1)) (fin 50) 50 ⟨fin 0⟩ ?_ (.fin 50) (by norm_num) ?_ c)
  · intro r hr
    rw [is_uniq hr (Is.fin 50)]
    have h50 : FP.rnd (50:ℝ) = 50 := by exact_mod_cast rnd_natCast 50 (by norm_num)
    rw [h50]
    refine ⟨rfl, FP.Lawful.not_huge _ ?_⟩
    rw [abs_of_pos (by norm_num)]
    calc (50:ℝ) ≤ 2 ^ 6 := by norm_num
      _ ≤ 2 ^ 1023 := pow_le_pow_right₀ (by norm_num) (by norm_num)
  · rw [e]
    have l2 := Real.log_two_gt_d9
    rw [← Real.exp_log (by positivity : (0:ℝ) < 1 / 2 ^ 900), Real.exp_le_exp, one_div, Real.log_inv, Real.log_pow]
    push_cast
    linarith

/-! ### the hypotheses are met -/

/-- the gamma variance, and its default standard deviation -/
example : ∃ d, Gamma.new (fin 2) (fin 1) = .ok d ∧
    ∀ s, (variancePair (some d.variance) none).RetB () s → RelClose s (√2) (65 / 2 ^ 52) := by
  obtain ⟨d, hd⟩ : ∃ d, Gamma.new (fin 2) (fin 1) = .ok d :=
    ⟨_, Gamma.new_ok.2 ⟨lt_of_pos (by norm_num) (.fin _), lt_of_pos (by norm_num) (.fin _), rfl⟩⟩
  refine ⟨d, hd, fun s hs => ?_⟩
  obtain ⟨⟨m, v, hv, -, hc⟩, -⟩ := C254_gamma hd (.fin _) (.fin _) (by unfold Ordinary; norm_num) (by unfold Ordinary; norm_num)
  have e := (hv.unique (gamma_moments (a := 2) (r := 1) two_pos one_pos).1).2
  norm_num at e
  subst e
  have := C272_standard_deviation (n := 64) (by norm_num) (by norm_num at hc ⊢; exact hc)
    (le_trans (by rw [div_le_one (by positivity)]; exact one_le_pow₀ (by norm_num)) one_le_two) (by
      calc (2:ℝ) = 2 ^ 1 := by norm_num
        _ ≤ 2 ^ 900 := pow_le_pow_right₀ (by norm_num) (by norm_num)) hs
  norm_num at this ⊢
  exact this

/-- the standard exponential distribution at 50 -/
example : ∃ d, Exponential.new (fin 1) = .ok d ∧ Rets (DistImpl.ccdf ⟨some d.cdf, none, none, none⟩) (fin 50) ⟨fin 0⟩ := by
  obtain ⟨d, hd⟩ : ∃ d, Exponential.new (fin 1) = .ok d := ⟨_, Exponential.new_ok.2 ⟨lt_of_pos (by norm_num) (.fin _), rfl⟩⟩
  exact ⟨d, hd, (C273_exponential_violated hd (.fin 1) (.fin 50) (by norm_num) none).1⟩

/-- the standard logistic distribution at 50 -/
example : ∃ d, Logistic.new 0 (fin 1) = .ok d ∧ Rets (DistImpl.ccdf ⟨some d.cdf, none, none, none⟩) (fin 50) ⟨fin 0⟩ := by
  obtain ⟨d, hd⟩ : ∃ d, Logistic.new 0 (fin 1) = .ok d := ⟨_, Logistic.new_ok.2 ⟨lt_of_pos (by norm_num) (.fin _), rfl⟩⟩
  have i : (fin 50 - (0 : F64)).Is 50 := by
    have e1 := add_ext (Is.fin 50) (Is.zero.neg : (-(0:F64)).Is (-0))
    have r50 : rnd (50:ℝ) = 50 := by exact_mod_cast rnd_natCast 50 (by norm_num)
    rw [neg_zero, add_zero, round_val r50 (by
      rw [abs_of_pos (by norm_num)]
      calc (50:ℝ) < 2 ^ 6 := by norm_num
        _ ≤ 2 ^ 1024 := pow_le_pow_right₀ (by norm_num) (by norm_num)) (by norm_num)] at e1
    exact Is.of_ext (Is.fin 50) e1.symm
  exact ⟨d, hd, (C273_logistic_violated (m := 0) (r := 50) hd (.fin 1) i (by norm_num) none).1⟩

/-- a third of the way down the exponential distribution the default `ccdf` is accurate -/
example : ∃ d, Exponential.new (fin 1) = .ok d ∧
    ∀ q, Rets (DistImpl.ccdf ⟨some d.cdf, none, none, none⟩) (fin 1) q → AbsClose q.val (1 - expCDF 1 1) (1 / 2 ^ 47 + 1 / 2 ^ 51) := by
  obtain ⟨d, hd⟩ : ∃ d, Exponential.new (fin 1) = .ok d := ⟨_, Exponential.new_ok.2 ⟨lt_of_pos (by norm_num) (.fin _), rfl⟩⟩
  refine ⟨d, hd, fun q hq => ?_⟩
  have e1 : Real.exp (-(1 * 1)) ≤ 1 := Real.exp_le_one_iff.2 (by norm_num)
  have e0 := Real.exp_pos (-(1 * 1))
  have c : expCDF 1 1 = 1 - Real.exp (-(1 * 1)) := by unfold expCDF; rw [if_neg (by norm_num)]
  refine C272_ccdf ⟨some d.cdf, none, none, none⟩ rfl (fin 1) (d.cdf (fin 1)) q (by rw [c]; linarith) (by rw [c]; linarith) (by norm_num)
    (((cdfPair (some d.cdf) none).retA_iff_over rfl _ _).2 rfl) ?_ hq
  exact C251_exponential hd (.fin 1) (fin 1) 1 (fun r hr => by
    rw [is_uniq hr (Is.fin 1)]; exact ⟨F64.rnd_one, not_le.2 one1024⟩) (.fin 1) (by simp)

end
end Rstat
