import Verif.Props.FloatStats2
import Verif.Props.Dist.Kumaraswamy
import Verif.Props.Dist.Levy
import Verif.Props.Dist.FoldedNormal

/-! C236: means, medians and modes in rounded arithmetic lie in the closed range of the support (`0 ≤ m` for the families on the
positive half-line, and so on; `≤` excludes NaN). Parameters range over every finite f64 accepted by the constructor. -/
set_option linter.unusedSectionVars false
namespace Rstat
open F64 Spec Consts

section
variable [FP] [FP.Lawful] [FP.Libm]

theorem ne_nan_of_nn {x : F64} (h : (0 : F64) ≤ x) : x ≠ nan := by rintro rfl; exact not_le_nan h
theorem fin_add_ne_nan {x y : F64} (hx : x.isFinite) (hy : (0 : F64) ≤ y) : x + y ≠ nan := by
  have : ∃ r, x.Is r := by
    cases x with
    | fin r => exact ⟨r, Is.fin r⟩
    | negZero => exact ⟨0, Is.negZero⟩
    | _ => simp at hx
  obtain ⟨r, hr⟩ := this
  rcases nonneg_cases hy with rfl | ⟨s, hs, _⟩
  · rw [fin_add_pinf hr]; simp
  · intro h
    have := add_ext hr hs
    rw [h] at this
    exact round_ne_nan (r := r + s) (by
      cases hh : F64.round (r + s) <;> simp_all)

/-- C236 (means of the families on the positive half-line): `mean()` is a non-negative number or `+inf`, never NaN. -/
theorem C236_float_mean_positive_partial {a b : F64} (ha : a.isFinite) (hb : b.isFinite) :
    (∀ d, Exponential.new a = .ok d → (0 : F64) ≤ d.mean) ∧ (∀ d, Gamma.new a b = .ok d → (0 : F64) ≤ d.mean) ∧
    (∀ k, k < 2 ^ 64 → ∀ d, Erlang.new k b = .ok d → (0 : F64) ≤ d.mean) ∧ (∀ d, Poisson.new a = .ok d → (0 : F64) ≤ d.mean) ∧
    (∀ k, k < 2 ^ 64 → ∀ d, ChiSq.new k = .ok d → (0 : F64) ≤ d.mean) ∧
    (∀ d, InvNormal.new a b = .ok d → (0 : F64) ≤ d.mean) ∧ (∀ d, Rayleigh.new b = .ok d → (0 : F64) ≤ d.mean) ∧
    (∀ d, LogNormal.new a b = .ok d → (0 : F64) ≤ d.mean ∧ (0 : F64) ≤ d.median) := by
  refine ⟨fun d h => ?_, fun d h => ?_, fun k hk d h => ?_, fun d h => ?_, fun k hk d h => ?_, fun d h => ?_, fun d h => ?_, fun d h => ?_⟩
  · obtain ⟨h0, rfl⟩ := Exponential.new_ok.1 h
    obtain ⟨s, rfl, hs⟩ := fin_pos h0 ha
    exact nn_div hs (nn_is Is.one zero_le_one)
  · obtain ⟨h0, h1, rfl⟩ := Gamma.new_ok.1 h
    obtain ⟨s, rfl, hs⟩ := fin_pos h1 hb
    exact nn_div hs (le_of_lt' h0)
  · obtain ⟨_, h1, rfl⟩ := Erlang.new_ok.1 h
    obtain ⟨s, rfl, hs⟩ := fin_pos h1 hb
    exact nn_div hs (ofNat_nn hk)
  · obtain ⟨h0, rfl⟩ := Poisson.new_ok.1 h
    exact le_of_lt' h0
  · obtain ⟨h0, rfl⟩ := ChiSq.new_ok.1 h
    exact ofNat_nn hk
  · obtain ⟨h0, h1, rfl⟩ := InvNormal.new_ok.1 h
    exact le_of_lt' h0
  · obtain ⟨h0, rfl⟩ := Rayleigh.new_ok.1 h
    obtain ⟨s, rfl, hs⟩ := fin_pos h0 hb
    have h2 : Btw 1 2 PI_OVER_2 := pi_btw.div (Btw.num (Is.num 2)) (by norm_num) (keep 1 0) (keep 2 0) fun x y a b c d => by
      have : y = 2 := le_antisymm d c
      subst y; constructor <;> linarith
    obtain ⟨x, hx, x0, x1, _⟩ := h2.pos one_pos
    unfold Rayleigh.mean
    rw [hx]
    refine mul_nn hs ?_
    unfold F64.sqrt
    dsimp only
    rw [if_neg (by linarith)]
    exact round_nonneg (Real.sqrt_nonneg x)
  · obtain ⟨h0, rfl⟩ := LogNormal.new_ok.1 h
    obtain ⟨s, rfl, hs⟩ := fin_pos h0 hb
    have e2 := num_fin (Is.num 2) (by norm_num)
    constructor
    · unfold LogNormal.mean
      apply exp_nonneg
      dsimp only
      rw [e2]
      exact fin_add_ne_nan ha (nn_div (by norm_num) (fin_sq_nn s))
    · unfold LogNormal.median
      apply exp_nonneg
      rintro rfl
      simp at ha

/-- C236 (bounded supports): the mean of a uniform distribution lies between its ends, that of a Beta in `[0, 1]`, that of a binomial in
`[0, n]`; the median of the uniform is its mean. -/
theorem C236_float_mean_bounded_partial {a b : F64} (hb : b.isFinite) :
    ((∃ r, a.Rep r) → (∃ s, b.Rep s) → ∀ d, UniformF.new a b = .ok d → a ≤ d.mean ∧ d.mean ≤ a + b ∧ d.median = d.mean) ∧
    (a.isFinite → ∀ d, BetaDist.new a b = .ok d → (0 : F64) ≤ d.mean ∧ d.mean ≤ 1) ∧
    (∀ d, Bernoulli.new a = .ok d → (0 : F64) ≤ d.mean ∧ d.mean ≤ 1) ∧
    (∀ n P, n < 2 ^ 64 → ∀ d, Binomial.new n P = .ok d → (0 : F64) ≤ d.mean ∧ d.mean ≤ F64.ofNat n) ∧
    (∀ n : ℕ, n < 2 ^ 64 → (∃ r, a.Rep r) → ∀ d, BetaBinomial.new n a b = .ok d → (0 : F64) ≤ d.mean ∧ d.mean ≤ F64.ofNat n) := by
  have e2 := num_fin (Is.num 2) (by norm_num)
  have kn : ∀ n : ℕ, n < 2 ^ 64 → ∃ r, (F64.ofNat n).Rep r ∧ 0 ≤ r := fun n hn => by
    obtain ⟨r, hr, r0, _⟩ := ofNat_fin hn
    have hh : ¬ FP.huge (FP.rnd (n:ℝ)) := fun hh => by
      unfold F64.ofNat F64.round at hr
      rw [if_pos hh] at hr
      split at hr <;> rcases hr with h | ⟨h, _⟩ <;> cases h
    have e : r = FP.rnd (n:ℝ) := by
      unfold F64.ofNat F64.round at hr
      rw [if_neg hh] at hr
      split at hr
      · rename_i h; rw [h.1]; exact hr.eq Is.negZero
      · exact hr.eq (Is.fin _)
    exact ⟨r, ⟨hr, by rw [e, FP.Lawful.rnd_idem], by rw [e]; exact hh⟩, r0⟩
  have mn : ∀ (n : ℕ) (P : F64), n < 2 ^ 64 → Btw 0 1 P → (0 : F64) ≤ P * F64.ofNat n ∧ P * F64.ofNat n ≤ F64.ofNat n ∧
      (0 : F64) ≤ F64.ofNat n * P ∧ F64.ofNat n * P ≤ F64.ofNat n := fun n P hn ⟨p, hp, p0, p1⟩ => by
    obtain ⟨r, ⟨hr, kr⟩, r0⟩ := kn n hn
    obtain ⟨x, hx, x0, x1⟩ : Btw 0 r (P * F64.ofNat n) := (Btw.num hp).mul (Btw.num hr) (keep 0 0) kr fun x y a b c d => by
      have : x = p := le_antisymm b a
      have : y = r := le_antisymm d c
      subst x y
      exact ⟨by positivity, by nlinarith⟩
    obtain ⟨z, hz, z0, z1⟩ : Btw 0 r (F64.ofNat n * P) := (Btw.num hr).mul (Btw.num hp) (keep 0 0) kr fun x y a b c d => by
      have : x = r := le_antisymm b a
      have : y = p := le_antisymm d c
      subst x y
      exact ⟨by positivity, by nlinarith⟩
    exact ⟨nn_is hx x0, (hx.le_iff hr).2 x1, nn_is hz z0, (hz.le_iff hr).2 z1⟩
  refine ⟨fun ⟨r, hr⟩ ⟨s, hbs⟩ d h => ?_, fun ha d h => ?_, fun d h => ?_, fun n P hn d h => ?_, fun n hn ⟨r, hr⟩ d h => ?_⟩
  · obtain ⟨h0, rfl⟩ := UniformF.new_ok.1 h
    have hs := pos_of_lt h0 hbs.1
    have e := hbs.1.eq_fin hs.ne'
    subst e
    unfold UniformF.mean UniformF.median
    dsimp only
    rw [e2]
    refine ⟨le_add_self_of hr (nn_div (by norm_num) (nn_fin hs.le)), const_add_mono hr.1 ?_, rfl⟩
    exact le_congr (div_fin_ext (Is.fin s) (Is.fin 2) two_ne_zero).symm rfl (round_le_of_le (by linarith) hbs.2.1 hbs.2.2)
  · obtain ⟨h0, h1, rfl⟩ := BetaDist.new_ok.1 h
    obtain ⟨s, rfl, hs⟩ := fin_pos h1 hb
    obtain ⟨r, rfl, hr⟩ := fin_pos h0 ha
    unfold BetaDist.mean
    dsimp only
    have h2 : (0 : F64) ≤ fin s / fin r := nn_div hr (nn_fin hs.le)
    have h3 : (1 : F64) ≤ 1 + fin s / fin r := le_add_self_of ⟨Is.one, keep 1 0⟩ h2
    rcases pos_cases (lt_of_lt_of_le' (lt_of_pos one_pos Is.one) h3) with h | ⟨t, h, t0⟩
    · rw [h]
      have := const_div_pinf Is.one
      exact ⟨nn_is this le_rfl, (this.le_iff Is.one).2 zero_le_one⟩
    · rw [h] at h3 ⊢
      have hrt : 1 ≤ t := (Is.one.le_iff (Is.fin t)).1 h3
      obtain ⟨x, hx, x0, x1⟩ : Btw 0 1 (1 / fin t) := (Btw.num Is.one).div (Btw.num (Is.fin t)) t0 (keep 0 0) (keep 1 0) fun x y a b c d => by
        have : x = 1 := le_antisymm b a
        have : y = t := le_antisymm d c
        subst x y
        exact ⟨by positivity, (div_le_one t0).2 hrt⟩
      exact ⟨nn_is hx x0, (hx.le_iff Is.one).2 x1⟩
  · obtain ⟨⟨h0, h1⟩, rfl⟩ := Bernoulli.new_ok.1 h
    exact ⟨h0, h1⟩
  · obtain ⟨⟨h0, h1⟩, rfl⟩ := Binomial.new_ok.1 h
    obtain ⟨r, hr, a, b⟩ := prob_cases h0 h1
    have := mn n P.val hn ⟨r, hr, a, b⟩
    exact ⟨this.1, this.2.1⟩
  · obtain ⟨h0, h1, rfl⟩ := BetaBinomial.new_ok.1 h
    obtain ⟨s, rfl, hs⟩ := fin_pos h1 hb
    have r0 : 0 < r := pos_of_lt h0 hr.1
    have e := hr.1.eq_fin r0.ne'
    subst e
    obtain ⟨hpi, hrho⟩ := bb_pi_rho (n := n) (s := s) r0 hs hr.2
    have := mn n _ hn hpi
    exact ⟨this.2.2.1, this.2.2.2⟩
end
section
open B64
attribute [local instance] binary64 binary64_lawful B64.libm B64.specialFns

theorem ln2_btw : Btw (1 / 2) 1 (2 : F64).ln := by
  have e : (2 : F64) = fin 2 := (Is.num 2).eq_fin two_ne_zero
  rw [e]
  have h : (fin 2 : F64).ln = F64.round (Real.log 2) := by
    unfold F64.ln F64.logWith
    dsimp only
    rw [if_neg (by norm_num), if_neg (by norm_num)]
    rfl
  rw [h]
  exact round_btw (keep 1 1) (keep 1 0) (by linarith [Real.log_two_gt_d9]) (by linarith [Real.log_two_lt_d9])

theorem gt_one_of_repr {r : ℝ} (h : rnd r = r) (h0 : 1 < r) : 1 + 1 / 2 ^ 52 ≤ r := by
  by_contra hc
  push Not at hc
  have hu : ulpExp r = -52 := ulpExp_eq (-52) (by norm_num) (by norm_num; linarith) (by norm_num; linarith)
  have hr : (rne (r / 2 ^ (-52:ℤ)) : ℝ) * 2 ^ (-52:ℤ) = r := by
    have := h; unfold rnd at this; rwa [hu] at this
  generalize rne (r / 2 ^ (-52:ℤ)) = m at hr
  have e : (2:ℝ) ^ (-52:ℤ) = 1 / 2 ^ 52 := by rw [zpow_neg]; norm_num
  rw [e] at hr
  have h1 : (2:ℝ) ^ 52 < m := by
    rw [← hr] at h0
    rw [mul_one_div, lt_div_iff₀ (by positivity)] at h0
    linarith
  have h2 : (2:ℤ) ^ 52 + 1 ≤ m := by exact_mod_cast h1
  have h3 : ((2:ℝ) ^ 52 + 1) ≤ m := by exact_mod_cast h2
  have : (2 ^ 52 + 1) * (1 / 2 ^ 52 : ℝ) ≤ r := by rw [← hr]; exact mul_le_mul_of_nonneg_right h3 (by positivity)
  norm_num at this hc
  linarith
theorem powf_nn {a b : F64} (ha : (0 : F64) ≤ a) (hb : (0 : F64) ≤ b) : (0 : F64) ≤ a.powf b := by
  rcases nonneg_cases hb with rfl | ⟨s, hs, s0⟩
  · rcases nonneg_cases ha with rfl | ⟨r, hr, r0⟩
    · simp [F64.powf]; exact le_pinf Is.zero
    · rcases hr with rfl | ⟨rfl, _⟩
      · simp only [F64.powf]; simp
        split
        · exact nn_fin zero_le_one
        · split
          · exact nn_fin le_rfl
          · split
            · exact nn_fin zero_le_one
            · exact le_pinf Is.zero
      · simp [F64.powf]; exact nn_fin le_rfl
  · rcases s0.eq_or_lt with h | h
    · subst h
      have : a.powf b = fin 1 := by
        unfold F64.powf
        rw [if_pos (by rcases hs with rfl | ⟨rfl, _⟩ <;> simp)]
      rw [this]; exact nn_fin zero_le_one
    · exact (powf_mono hs h ha (le_rfl' (ne_nan_of_nn ha))).1
theorem powf_le1 {a b : F64} (ha : (0 : F64) ≤ a) (ha1 : a ≤ 1) (hb : (0 : F64) ≤ b) : a.powf b ≤ 1 := by
  rcases nonneg_cases hb with rfl | ⟨s, hs, s0⟩
  · obtain ⟨r, hr, r0, r1⟩ := prob_cases ha ha1
    rcases hr with rfl | ⟨rfl, _⟩
    · rcases r1.eq_or_lt with rfl | r1
      · simp [F64.powf]; exact le_rfl' (by simp)
      · simp [F64.powf, r1.ne, abs_of_nonneg r0, r1]; exact (Is.fin 0).le_iff Is.one |>.2 zero_le_one
    · simp [F64.powf]; exact (Is.fin 0).le_iff Is.one |>.2 zero_le_one
  · rcases s0.eq_or_lt with h | h
    · subst h
      have : a.powf b = fin 1 := by
        unfold F64.powf
        rw [if_pos (by rcases hs with rfl | ⟨rfl, _⟩ <;> simp)]
      rw [this]; exact le_rfl' (by simp)
    · exact powf_le_one hs h ha ha1
theorem add_rep {a b : F64} {r s : ℝ} (ha : a.Is r) (hb : b.Is s) : a + b = pinf ∨ a + b = ninf ∨ ∃ t, (a + b).Rep t := by
  by_cases hh : FP.huge (FP.rnd (r + s))
  · rcases add_eq_round ha hb with he | ⟨_, _, he⟩
    · rw [he]
      unfold F64.round
      rw [if_pos hh]
      split
      · exact .inl rfl
      · exact .inr (.inl rfl)
    · rw [he]; exact .inr (.inr ⟨0, Is.negZero, keep 0 0⟩)
  · rcases add_eq_round ha hb with he | ⟨_, _, he⟩
    · refine .inr (.inr ⟨FP.rnd (r + s), ?_, FP.Lawful.rnd_idem _, hh⟩)
      rw [he]
      unfold F64.round
      rw [if_neg hh]
      split
      · rename_i h; rw [h.1]; exact Is.negZero
      · exact Is.fin _
    · rw [he]; exact .inr (.inr ⟨0, Is.negZero, keep 0 0⟩)

/-- C236 (families whose mean exists above a threshold, binary64): a returned mean is a non-negative number or `+inf`. -/
theorem C236_float_mean_threshold_partial {a b : F64} {r s : ℝ} (ha : a.Rep r) (hb : b.Rep s) :
    (∀ d, BetaPrime.new a b = .ok d → ∀ v, d.mean = .ok v → (0 : F64) ≤ v) ∧
    (∀ d, InvGamma.new a b = .ok d → ∀ v, d.mean = .ok v → (0 : F64) ≤ v) ∧
    (∀ m n : ℕ, m < 2 ^ 64 → n < 2 ^ 64 → ∀ d, FDist.new m n = .ok d → ∀ v, d.mean = .ok v → (0 : F64) ≤ v) := by
  have sub1 : ∀ {x : ℝ}, Keep x → 1 < x → ∃ t, fin x - 1 = fin t ∧ 0 < t := fun {x} k h => by
    have hx : 1 + 1 / 2 ^ 52 ≤ x := by
      exact gt_one_of_repr k.1 h
    obtain ⟨t, h1, h3, _⟩ := sub_pos_fin (c := 1 / 2 ^ 52) Is.one (keep 1 52) hx (by norm_num) (by positivity) k
    exact ⟨t, h1, lt_of_lt_of_le (by positivity) h3⟩
  refine ⟨fun d h v hv => ?_, fun d h v hv => ?_, fun m n hm hn d h v hv => ?_⟩
  · obtain ⟨h0, h1, rfl⟩ := BetaPrime.new_ok.1 h
    have hs := pos_of_lt h1 hb.1
    have e2 := hb.1.eq_fin hs.ne'
    subst e2
    unfold BetaPrime.mean at hv
    split at hv
    · cases hv
    · rename_i hc
      have h2 : 1 < s := by
        by_contra hh; exact hc ((hb.1.le_iff Is.one).2 (not_lt.1 hh))
      obtain ⟨w, hw, w0⟩ := sub1 hb.2 h2
      cases hv
      dsimp only
      rw [hw]
      exact nn_div w0 (le_of_lt' h0)
  · obtain ⟨h0, h1, rfl⟩ := InvGamma.new_ok.1 h
    have hr := pos_of_lt h0 ha.1
    have e1 := ha.1.eq_fin hr.ne'
    subst e1
    unfold InvGamma.mean at hv
    split at hv
    · cases hv
    · rename_i hc
      have h2 : 1 < r := by
        by_contra hh; exact hc ((ha.1.le_iff Is.one).2 (not_lt.1 hh))
      obtain ⟨w, hw, w0⟩ := sub1 ha.2 h2
      cases hv
      dsimp only
      rw [hw]
      exact nn_div w0 (le_of_lt' h1)
  · obtain ⟨h0, h1, rfl⟩ := FDist.new_ok.1 h
    unfold FDist.mean at hv
    split at hv
    · cases hv
    · rename_i hc
      have h2 : Btw 3 (2 ^ 64) (F64.ofNat n) := by
        have h5 : (3:ℝ) ≤ n := by
          have : 3 ≤ n := by simp only at hc; omega
          exact_mod_cast this
        have : (n:ℝ) ≤ 2 ^ 64 := by exact_mod_cast hn.le
        exact round_btw (keep 3 0) (keep_pow (by norm_num)) h5 this
      have hm2 : Btw 1 (2 ^ 64) (F64.ofNat n - 2) := h2.sub (Btw.num (Is.num 2)) (keep 1 0) (keep_pow (by norm_num)) fun x y a b c d => by
        constructor <;> linarith
      obtain ⟨v2, hv2, v20, _⟩ := hm2.pos (by norm_num)
      cases hv
      show (0 : F64) ≤ F64.ofNat n / (F64.ofNat n - 2)
      rw [hv2]
      exact nn_div v20 (ofNat_nn hn)

/-- C236 (medians and modes, binary64): non-negative on the positive half-line, in `[0, 1]` for Kumaraswamy, between the ends for
Triangular. -/
theorem C236_float_median_mode_partial {a b : F64} {r s : ℝ} (ha : a.Rep r) (hb : b.Rep s) :
    (∀ d, Exponential.new a = .ok d → (0 : F64) ≤ d.median) ∧
    (∀ d, Rayleigh.new a = .ok d → (0 : F64) ≤ d.median) ∧
    (∀ d, Weibull.new a b = .ok d → (0 : F64) ≤ d.median) ∧
    (∀ d, Kumaraswamy.new a b = .ok d → (0 : F64) ≤ d.median ∧ d.median ≤ 1) ∧
    (∀ k : ℕ, k < 2 ^ 64 → ∀ d, ChiSq.new k = .ok d → (0 : F64) ≤ d.median) ∧
    (∀ d, Gamma.new a b = .ok d → ∀ ms, d.modes = .ok ms → ∀ m ∈ ms, (0 : F64) ≤ m) ∧
    (∀ d, InvGamma.new a b = .ok d → ∀ m ∈ d.modes, (0 : F64) ≤ m) ∧
    (∀ d, BetaPrime.new a b = .ok d → ∀ m ∈ d.modes, (0 : F64) ≤ m) ∧
    (∀ d, FoldedNormal.new a b = .ok d → ∀ m ∈ d.modes, (0 : F64) ≤ m) ∧
    (∀ q d, q.isFinite → Triangular.new a b q = .ok d → ∀ m ∈ d.modes, d.support.1 ≤ m ∧ m ≤ d.support.2) := by
  have hinv : ∀ {c : F64}, 0 < c → (0 : F64) ≤ 1 / c := fun {c} h => by
    rcases pos_cases h with rfl | ⟨t, rfl, t0⟩
    · exact nn_is (const_div_pinf Is.one) le_rfl
    · exact nn_div t0 (nn_is Is.one zero_le_one)
  obtain ⟨l, hl, l0, l1, l2⟩ := ln2_btw.pos (by norm_num)
  refine ⟨fun d h => ?_, fun d h => ?_, fun d h => ?_, fun d h => ?_, fun k hk d h => ?_, fun d h ms hms m hm => ?_, fun d h m hm => ?_,
    fun d h m hm => ?_, fun d h m hm => ?_, fun q d hq h m hm => ?_⟩
  · obtain ⟨h0, rfl⟩ := Exponential.new_ok.1 h
    unfold Exponential.median Exponential.mean
    rw [hl]
    exact nn_mul l0 (hinv h0)
  · obtain ⟨h0, rfl⟩ := Rayleigh.new_ok.1 h
    have hr := pos_of_lt h0 ha.1
    have e1 := ha.1.eq_fin hr.ne'
    subst e1
    unfold Rayleigh.median
    obtain ⟨x, hx, x0, _, _⟩ := Btw.pos ((Btw.num (Is.num 2)).mul ln2_btw (lo := 1) (hi := 2) (keep 1 0) (keep 2 0) fun x y a b c d => by
      constructor <;> nlinarith) one_pos
    rw [hx]
    refine mul_nn hr ?_
    unfold F64.sqrt
    dsimp only
    rw [if_neg (by linarith)]
    exact round_nonneg (Real.sqrt_nonneg x)
  · obtain ⟨h0, h1, rfl⟩ := Weibull.new_ok.1 h
    have hr := pos_of_lt h0 ha.1
    have e1 := ha.1.eq_fin hr.ne'
    subst e1
    unfold Weibull.median
    exact mul_nn hr (powf_nn (by rw [hl]; exact nn_fin l0.le) (hinv h1))
  · obtain ⟨h0, h1, rfl⟩ := Kumaraswamy.new_ok.1 h
    have hs := pos_of_lt h1 hb.1
    have e2 := hb.1.eq_fin hs.ne'
    subst e2
    unfold Kumaraswamy.median
    dsimp only
    have h2 : Btw 0 1 ((2 : F64).powf (fin (-1) / fin s)) := by
      have hle : fin (-1) / fin s ≤ (0 : F64) := by
        refine le_congr (div_fin_ext (Is.fin (-1)) (Is.fin s) hs.ne').symm rfl (round_le_of_le (s := 0) ?_ (keep 0 0).1 (keep 0 0).2)
        rw [neg_div]; exact neg_nonpos.2 (by positivity)
      have e : (2 : F64) = fin 2 := (Is.num 2).eq_fin two_ne_zero
      obtain ⟨_, _, hc⟩ := le_cases.1 hle
      rcases hc with hc | hc | ⟨t, u, ht, hu, htu⟩
      · rw [hc, e]
        simp [F64.powf]
        exact ⟨0, Is.fin 0, le_rfl, zero_le_one⟩
      · cases hc
      · rw [← Is.zero.eq hu] at htu
        rcases htu.eq_or_lt with h3 | h3
        · subst h3
          have : (2 : F64).powf (fin (-1) / fin s) = fin 1 := by
            generalize fin (-1) / fin s = z at ht
            unfold F64.powf
            rw [if_pos (by rcases ht with rfl | ⟨rfl, _⟩ <;> simp)]
          rw [this]; exact ⟨1, Is.fin 1, zero_le_one, le_rfl⟩
        · rw [powf_pos_ext (Is.num 2) ht two_pos h3.ne]
          exact round_btw (keep 0 0) (keep 1 0) (Real.rpow_nonneg zero_le_two t) (Real.rpow_le_one_of_one_le_of_nonpos one_le_two h3.le)
    obtain ⟨x, hx, x0, x1⟩ : Btw 0 1 (1 - (2 : F64).powf (fin (-1) / fin s)) := (Btw.num Is.one).sub h2 (keep 0 0) (keep 1 0) fun x y a b c d => by
      constructor <;> linarith
    have g1 := nn_is hx x0
    have g2 := (hx.le_iff Is.one).2 x1
    exact ⟨powf_nn g1 (hinv h0), powf_le1 g1 g2 (hinv h0)⟩
  · obtain ⟨h0, rfl⟩ := ChiSq.new_ok.1 h
    unfold ChiSq.median ChiSq.kf
    obtain ⟨x, hx, x1⟩ := ofNat_pos hk h0
    dsimp only
    rw [hx]
    refine mul_nn (by linarith) ?_
    have g1 : Btw (1 / 8) (1 / 4) (2 / 9 : F64) := (Btw.num (Is.num 2)).div (Btw.num (Is.num 9)) (by norm_num) (keep 1 3) (keep 1 2)
      fun x y a b c d => by
        have : x = 2 := le_antisymm b a
        have : y = 9 := le_antisymm d c
        subst x y; constructor <;> norm_num
    have g2 : Btw 0 (1 / 4) (2 / 9 / fin x : F64) := g1.div (Btw.num (Is.fin x)) (by linarith) (keep 0 0) (keep 1 2) fun y z a b c d => by
      have : z = x := le_antisymm d c
      subst z
      constructor
      · positivity
      · rw [div_le_iff₀ (by linarith)]; linarith
    have g3 : Btw 0 1 (1 - 2 / 9 / fin x : F64) := (Btw.num Is.one).sub g2 (keep 0 0) (keep 1 0) fun y z a b c d => by
      constructor <;> linarith
    have mulb : ∀ {y z : F64}, Btw 0 1 y → Btw 0 1 z → Btw 0 1 (y * z) := fun hy hz => hy.mul hz (keep 0 0) (keep 1 0)
      fun y z a b c d => ⟨mul_nonneg a c, by nlinarith⟩
    have e : (1 - 2 / 9 / fin x : F64).powi 3 = fin 1 * (1 - 2 / 9 / fin x) * ((1 - 2 / 9 / fin x) * (1 - 2 / 9 / fin x)) := by
      unfold F64.powi
      rw [if_neg (by norm_num)]
      show F64.powiLoop _ (fin 1) 3 = _
      rw [F64.powiLoop, dif_neg (by norm_num), if_pos (by norm_num), F64.powiLoop, dif_pos (by norm_num), if_pos (by norm_num)]
    rw [e]
    obtain ⟨y, hy, y0, _⟩ := mulb (mulb (⟨1, Is.fin 1, zero_le_one, le_rfl⟩ : Btw 0 1 (fin 1)) g3) (mulb g3 g3)
    exact nn_is hy y0
  · obtain ⟨h0, h1, rfl⟩ := Gamma.new_ok.1 h
    have hs := pos_of_lt h1 hb.1
    have e2 := hb.1.eq_fin hs.ne'
    subst e2
    unfold Gamma.modes at hms
    split at hms
    · cases hms
    · rename_i hc
      cases hms
      rw [List.mem_singleton] at hm
      subst hm
      have : 1 ≤ r := by
        by_contra hh; exact hc ((ha.1.lt_iff Is.one).2 (not_le.1 hh))
      exact nn_div hs (sub_nonneg_of_le ha.1 Is.one this)
  · obtain ⟨h0, h1, rfl⟩ := InvGamma.new_ok.1 h
    unfold InvGamma.modes at hm
    rw [List.mem_singleton] at hm
    subst hm
    have h2 : (0 : F64) < a + 1 := by
      have := pos_of_lt h0 ha.1
      have h3 := add_ext ha.1 Is.one
      have h4 : fin 1 ≤ F64.round (r + 1) := le_round_of_le (by linarith) (keep 1 0).1 (keep 1 0).2
      exact lt_of_lt_of_le' (lt_of_pos one_pos (Is.fin 1)) (le_congr rfl h3.symm h4)
    rcases pos_cases h2 with h3 | ⟨t, h3, t0⟩
    · show (0 : F64) ≤ b / (a + 1)
      rw [h3]; exact nn_is (const_div_pinf hb.1) le_rfl
    · show (0 : F64) ≤ b / (a + 1)
      rw [h3]; exact nn_div t0 (le_of_lt' h1)
  · obtain ⟨h0, h1, rfl⟩ := BetaPrime.new_ok.1 h
    unfold BetaPrime.modes at hm
    split at hm
    · rename_i hc
      rw [List.mem_singleton] at hm
      subst hm
      have h2 : (0 : F64) < b + 1 := by
        have := pos_of_lt h1 hb.1
        have h3 := add_ext hb.1 Is.one
        have h4 : fin 1 ≤ F64.round (s + 1) := le_round_of_le (by linarith) (keep 1 0).1 (keep 1 0).2
        exact lt_of_lt_of_le' (lt_of_pos one_pos (Is.fin 1)) (le_congr rfl h3.symm h4)
      have h5 : (0 : F64) ≤ a - 1 := sub_nonneg_of_le ha.1 Is.one ((Is.one.le_iff ha.1).1 hc)
      rcases pos_cases h2 with h3 | ⟨t, h3, t0⟩
      · show (0 : F64) ≤ (a - 1) / (b + 1)
        rw [h3]
        obtain ⟨y, hy, _⟩ : Btw 0 r (a - 1) := (Btw.num ha.1).sub (Btw.num Is.one) (keep 0 0) ha.2 fun x y a b c d => by
          have := (Is.one.le_iff ha.1).1 hc
          constructor <;> linarith
        exact nn_is (const_div_pinf hy) le_rfl
      · show (0 : F64) ≤ (a - 1) / (b + 1)
        rw [h3]; exact nn_div t0 h5
    · rw [List.mem_singleton] at hm
      subst hm; exact nn_is Is.zero le_rfl
  · obtain ⟨h0, rfl⟩ := FoldedNormal.new_ok.1 h
    unfold FoldedNormal.modes at hm
    split at hm
    · rw [List.mem_singleton] at hm
      subst hm; exact nn_is Is.zero le_rfl
    · rename_i hc
      rw [List.mem_singleton] at hm
      subst hm
      have : s ≤ r := by
        by_contra hh; exact hc ((ha.1.lt_iff hb.1).2 (not_le.1 hh))
      exact nn_is ha.1 ((pos_of_lt h0 hb.1).le.trans this)
  · obtain ⟨h0, h1, rfl⟩ := Triangular.new_ok.1 h
    unfold Triangular.modes at hm
    rw [List.mem_singleton] at hm
    subst hm
    unfold Triangular.support Triangular.b Triangular.c
    dsimp only
    have h2 : a ≤ a + b := le_add_self_of ha (le_of_lt' h0)
    refine ⟨h2, ?_⟩
    obtain ⟨t, rfl, _⟩ := fin_pos h1 hq
    rcases add_rep ha.1 hb.1 with h | h | ⟨x, hx⟩
    · rw [h, pinf_add (Is.fin t)]; exact le_rfl' (by simp)
    · rw [h] at h2; exact absurd h2 (not_le_ninf ha.1)
    · exact le_add_self_of hx (le_of_lt' h1)
theorem rnd_tie {x : ℝ} (m e : ℤ) (he : -1074 ≤ e) (h1 : (2:ℝ) ^ (e + 52) ≤ x) (h2 : x < 2 ^ (e + 53))
    (hm : x / 2 ^ e = m + 1 / 2) : rnd x = (if Even m then m else m + 1 : ℤ) * 2 ^ e := by
  have hf : ⌊(m:ℝ) + 1 / 2⌋ = m := by rw [Int.floor_eq_iff]; constructor <;> linarith
  unfold rnd
  rw [ulpExp_eq e he h1 h2, hm]
  unfold rne
  rw [hf, if_neg (by linarith), if_neg (by linarith)]
theorem round_val {x v : ℝ} (h : rnd x = v) (hv : |v| < 2 ^ 1024) (h0 : v ≠ 0) : F64.round x = fin v := by
  have hh : ¬ FP.huge (FP.rnd x) := by
    show ¬ (2:ℝ) ^ 1024 ≤ |rnd x|
    rw [h]; exact not_le.2 hv
  unfold F64.round
  rw [if_neg hh, if_neg (by rintro ⟨h1, _⟩; exact h0 (h ▸ h1))]
  rw [show FP.rnd x = rnd x from rfl, h]
theorem add_val {a b v : ℝ} (h : rnd (a + b) = v) (hv : |v| < 2 ^ 1024) (h0 : v ≠ 0) : fin a + fin b = fin v := by
  have := add_ext (Is.fin a) (Is.fin b)
  rw [round_val h hv h0] at this
  exact ((Is.fin v).of_ext this.symm).eq_fin h0
theorem sub_val {a b v : ℝ} {B : F64} (hB : B.Is b) (h : rnd (a - b) = v) (hv : |v| < 2 ^ 1024) (h0 : v ≠ 0) : fin a - B = fin v := by
  have := add_ext (Is.fin a) hB.neg
  rw [← sub_eq_add_neg, round_val h hv h0] at this
  exact ((Is.fin v).of_ext this.symm).eq_fin h0
theorem mul_val {a b v : ℝ} (h : rnd (a * b) = v) (hv : |v| < 2 ^ 1024) (h0 : v ≠ 0) : fin a * fin b = fin v := by
  have := mul_fin_ext (Is.fin a) (Is.fin b)
  rw [round_val h hv h0] at this
  exact ((Is.fin v).of_ext this.symm).eq_fin h0
theorem div_val {a b v : ℝ} (hb : b ≠ 0) (h : rnd (a / b) = v) (hv : |v| < 2 ^ 1024) (h0 : v ≠ 0) : fin a / fin b = fin v := by
  have := div_fin_ext (Is.fin a) (Is.fin b) hb
  rw [round_val h hv h0] at this
  exact ((Is.fin v).of_ext this.symm).eq_fin h0
theorem lt1024 {v : ℝ} (h : |v| ≤ 2 ^ 60) : |v| < 2 ^ 1024 := lt_of_le_of_lt h (pow_lt_pow_right₀ (by norm_num) (by norm_num))

/-- Beta(2^54 + 4, 3/2) has its mode above 1 -/
theorem beta_mode_above_one : BetaDist.modes ⟨fin (2 ^ 54 + 4), fin (3 / 2)⟩ = [fin (1 + 1 / 2 ^ 52)] := by
  unfold BetaDist.modes
  dsimp only
  rw [if_pos ⟨(Is.one.lt_iff (Is.fin _)).2 (by norm_num), (Is.one.lt_iff (Is.fin _)).2 (by norm_num)⟩]
  have e1 : fin (2 ^ 54 + 4) - 1 = fin (2 ^ 54 + 4) := sub_val Is.one
    ((rnd_eq (2 ^ 52 + 1) 2 (by norm_num) (by norm_num) (by norm_num) (by norm_num [abs_lt])).trans (by norm_num)) (lt1024 (by norm_num [abs_le])) (by norm_num)
  have e2 : fin (2 ^ 54 + 4) + fin (3 / 2) = fin (2 ^ 54 + 4) := add_val
    ((rnd_eq (2 ^ 52 + 1) 2 (by norm_num) (by norm_num) (by norm_num) (by norm_num [abs_lt])).trans (by norm_num)) (lt1024 (by norm_num [abs_le])) (by norm_num)
  have e3 : fin (2 ^ 54 + 4) - 2 = fin (2 ^ 54) := sub_val (Is.num 2)
    ((rnd_tie (2 ^ 52) 2 (by norm_num) (by norm_num) (by norm_num) (by norm_num)).trans
      (by rw [if_pos (⟨2 ^ 51, by norm_num⟩)]; norm_num)) (lt1024 (by norm_num [abs_le])) (by norm_num)
  have e4 : fin (2 ^ 54 + 4) / fin (2 ^ 54) = fin (1 + 1 / 2 ^ 52) := div_val (by norm_num)
    ((rnd_eq (2 ^ 52 + 1) (-52) (by norm_num) (by norm_num) (by norm_num) (by norm_num [abs_lt])).trans (by norm_num)) (lt1024 (by norm_num [abs_le])) (by norm_num)
  rw [e1, e2, e3, e4]
/-- Pareto(3, 2^55 - 8) has its mean below the left end 3 of the support -/
theorem pareto_mean_below : Pareto.mean ⟨fin 3, fin (2 ^ 55 - 8)⟩ = fin (3 - 1 / 2 ^ 51) := by
  unfold Pareto.mean
  dsimp only
  rw [if_neg (by rw [(Is.fin _).le_iff Is.one]; norm_num)]
  have e1 : fin (2 ^ 55 - 8) - 1 = fin (2 ^ 55 - 8) := sub_val Is.one
    ((rnd_eq (2 ^ 53 - 2) 2 (by norm_num) (by norm_num) (by norm_num) (by norm_num [abs_lt])).trans (by norm_num)) (lt1024 (by norm_num [abs_le])) (by norm_num)
  have e2 : fin (2 ^ 55 - 8) * fin 3 = fin (3 * 2 ^ 55 - 32) := mul_val
    ((rnd_tie (3 * 2 ^ 51 - 2) 4 (by norm_num) (by norm_num) (by norm_num) (by norm_num)).trans
      (by rw [if_pos (⟨3 * 2 ^ 50 - 1, by norm_num⟩)]; norm_num)) (lt1024 (by norm_num [abs_le])) (by norm_num)
  have e3 : fin (3 * 2 ^ 55 - 32) / fin (2 ^ 55 - 8) = fin (3 - 1 / 2 ^ 51) := div_val (by norm_num)
    ((rnd_eq (3 * 2 ^ 51 - 1) (-51) (by norm_num) (by norm_num) (by norm_num) (by norm_num [abs_lt])).trans (by norm_num)) (lt1024 (by norm_num [abs_le])) (by norm_num)
  rw [e1, e2, e3]

/-- C236 (violation): an arcsine distribution starting at 2^1023 or above has mean `+inf` although its upper end may be finite; the mean of
a chi law with 400 or more degrees of freedom is NaN; a geometric distribution accepted with `p = -0.0` has mean `-inf`, with `p = 1` it has
median `-1`; a Beta mode above 1; a Pareto mean below the left end of the support. -/
theorem C236_float_location_violated :
    (∀ r s : ℝ, 2 ^ 1023 ≤ r → ∀ d, Arcsine.new (fin r) (fin s) = .ok d → d.mean = pinf) ∧
    (∃ r s d, Arcsine.new (fin r) (fin s) = .ok d ∧ d.mean = pinf ∧ d.support.2.isFinite) ∧
    (∀ k : ℕ, 400 ≤ k → k < 2 ^ 64 → ∀ d, Chi.new k = .ok d → d.mean = nan) ∧
    (∃ d, Geometric.new negZero = .ok d ∧ d.mean = ninf) ∧
    (∃ d, Geometric.new 1 = .ok d ∧ d.median.Is (-1)) ∧
    (∃ d, BetaDist.new (fin (2 ^ 54 + 4)) (fin (3 / 2)) = .ok d ∧ ∃ m ∈ d.modes, ¬ m ≤ 1) ∧
    (∃ d, Pareto.new (fin 3) (fin (2 ^ 55 - 8)) = .ok d ∧ ¬ fin 3 ≤ d.mean) := by
  have key : ∀ r s : ℝ, 2 ^ 1023 ≤ r → ∀ d, Arcsine.new (fin r) (fin s) = .ok d → d.mean = pinf := fun r s hr d h => by
    obtain ⟨h0, rfl⟩ := Arcsine.new_ok.1 h
    have h1 : fin (2 ^ 1023) ≤ fin r + fin s := fin_le_add (keep_pow (by norm_num)) hr (Is.fin r) (le_of_lt' h0)
    have h2 : fin r + (fin r + fin s) = pinf := by
      rcases le_fin_cases h1 with h | ⟨x, hx, hc⟩
      · rw [h, fin_add_pinf (Is.fin r)]
      · have e := add_ext (Is.fin r) hx
        rw [round_pinf (by
          rw [show (2:ℝ) ^ 1024 = 2 ^ 1023 + 2 ^ 1023 by rw [pow_succ]; ring]
          exact add_le_add hr hc)] at e
        generalize fin r + (fin r + fin s) = z at e
        cases z <;> simp_all
    unfold Arcsine.mean Arcsine.b
    dsimp only
    rw [h2, show (2 : F64) = fin 2 from (Is.num 2).eq_fin two_ne_zero]
    show F64.div pinf (fin 2) = pinf
    simp [F64.div, F64.sinf]
  refine ⟨key, ?_, fun k h1 h2 d h => ?_, ?_, ?_, ?_, ?_⟩
  · have h : Arcsine.new (fin (2 ^ 1023)) (fin (2 ^ 1000)) = .ok ⟨fin (2 ^ 1023), fin (2 ^ 1000)⟩ :=
      Arcsine.new_ok.2 ⟨lt_of_pos (by positivity) (Is.fin _), rfl⟩
    refine ⟨_, _, _, h, key _ _ le_rfl _ h, ?_⟩
    have e : (2:ℝ) ^ 1023 + 2 ^ 1000 = (2 ^ 23 + 1) * 2 ^ 1000 := by
      rw [show 1023 = 23 + 1000 from rfl, pow_add]; ring
    have hr : rnd ((2:ℝ) ^ 1023 + 2 ^ 1000) = 2 ^ 1023 + 2 ^ 1000 := by
      have := rnd_repr (2 ^ 23 + 1) 1000 (by norm_num) (by norm_num)
      rw [show (2:ℝ) ^ (1000:ℤ) = 2 ^ 1000 from zpow_natCast 2 1000] at this
      push_cast at this
      rw [e, show (2:ℝ) ^ 23 + 1 = 8388609 by norm_num]; exact this
    have hv : |(2:ℝ) ^ 1023 + 2 ^ 1000| < 2 ^ 1024 := by
      rw [abs_of_pos (by positivity), show (2:ℝ) ^ 1024 = 2 ^ 1023 + 2 ^ 1023 by rw [pow_succ]; ring]
      have : (2:ℝ) ^ 1000 < 2 ^ 1023 := pow_lt_pow_right₀ (by norm_num) (by norm_num)
      generalize (2:ℝ) ^ 1000 = x at this ⊢
      generalize (2:ℝ) ^ 1023 = y at this ⊢
      linarith
    show (fin (2 ^ 1023) + fin (2 ^ 1000)).isFinite
    rw [add_val hr hv (by positivity)]
    simp
  · obtain ⟨_, rfl⟩ := Chi.new_ok.1 h; exact chi_mean_nan h1 h2
  · have h : Geometric.new negZero = .ok ⟨⟨negZero⟩, ⟨1 - negZero⟩⟩ :=
      Geometric.new_ok.2 ⟨⟨(Is.zero.le_iff Is.negZero).2 le_rfl, (Is.negZero.le_iff Is.one).2 zero_le_one⟩, rfl⟩
    refine ⟨_, h, ?_⟩
    unfold Geometric.mean
    dsimp only
    have e : (1 - negZero : F64).Is 1 := by
      have e := add_ext Is.one Is.negZero.neg
      rw [neg_zero, add_zero, F64.round_one] at e
      exact (Is.fin 1).of_ext e.symm
    rw [e.eq_fin one_ne_zero]
    show F64.div (fin 1) negZero = ninf
    simp [F64.div, F64.sinf]
  · have h : Geometric.new 1 = .ok ⟨⟨1⟩, ⟨1 - 1⟩⟩ :=
      Geometric.new_ok.2 ⟨⟨(Is.zero.le_iff Is.one).2 zero_le_one, (Is.one.le_iff Is.one).2 le_rfl⟩, rfl⟩
    refine ⟨_, h, ?_⟩
    unfold Geometric.median Probability.log2
    dsimp only
    rw [one_sub_one64]
    have e : (fin 0 : F64).log2 = ninf := by simp [F64.log2, F64.logWith]
    rw [e]
    have hz : (-1 / ninf : F64).Is 0 := by
      have : (-1 / ninf : F64) = szero (¬ ((-1 : F64).isNeg ↔ ninf.isNeg)) := by
        rw [show (-1 : F64) = fin (-1) from Is.one.neg.eq_fin (by norm_num)]
        show F64.div (fin (-1)) ninf = _
        simp [F64.div]
      rw [this]; exact szero_is _
    obtain ⟨x, hx, x1, x2⟩ : Btw (-1) (-1) (-1 / ninf - 1 : F64) := (Btw.num hz).sub (Btw.num Is.one) (keep (-1) 0) (keep (-1) 0)
      fun x y a b c d => by constructor <;> linarith
    rwa [le_antisymm x2 x1] at hx
  · have h : BetaDist.new (fin (2 ^ 54 + 4)) (fin (3 / 2)) = .ok ⟨fin (2 ^ 54 + 4), fin (3 / 2)⟩ :=
      BetaDist.new_ok.2 ⟨lt_of_pos (by positivity) (Is.fin _), lt_of_pos (by norm_num) (Is.fin _), rfl⟩
    refine ⟨_, h, fin (1 + 1 / 2 ^ 52), by rw [beta_mode_above_one]; simp, ?_⟩
    rw [(Is.fin _).le_iff Is.one]; norm_num
  · have h : Pareto.new (fin 3) (fin (2 ^ 55 - 8)) = .ok ⟨fin 3, fin (2 ^ 55 - 8)⟩ :=
      Pareto.new_ok.2 ⟨lt_of_pos (by norm_num) (Is.fin _), rfl⟩
    refine ⟨_, h, ?_⟩
    rw [pareto_mean_below, fin_le_fin]; norm_num

-- non-vacuity of the positive parts, with extreme parameters
example : ∃ d, LogNormal.new (fin (-2 ^ 1000)) (fin (2 ^ 1000)) = .ok d ∧ (0 : F64) ≤ d.mean := by
  have h : LogNormal.new (fin (-2 ^ 1000)) (fin (2 ^ 1000)) = .ok ⟨⟨fin (-2 ^ 1000), fin (2 ^ 1000)⟩⟩ :=
    LogNormal.new_ok.2 ⟨lt_of_pos (by positivity) (Is.fin _), rfl⟩
  exact ⟨_, h, ((C236_float_mean_positive_partial (by simp) (by simp)).2.2.2.2.2.2.2 _ h).1⟩
example : ∃ d, UniformF.new (fin (-2 ^ 1000)) (fin (1 / 2 ^ 1000)) = .ok d ∧ fin (-2 ^ 1000) ≤ d.mean := by
  have h : UniformF.new (fin (-2 ^ 1000)) (fin (1 / 2 ^ 1000)) = .ok ⟨fin (-2 ^ 1000), fin (1 / 2 ^ 1000), 1 / fin (1 / 2 ^ 1000)⟩ :=
    UniformF.new_ok.2 ⟨lt_of_pos (by positivity) (Is.fin _), rfl⟩
  have k := keep_pow (e := 1000) (by norm_num)
  refine ⟨_, h, ((C236_float_mean_bounded_partial (by simp)).1 ⟨-2 ^ 1000, Is.fin _, ?_, ?_⟩ ⟨1 / 2 ^ 1000, Is.fin _, keep 1 1000⟩ _ h).1⟩
  · rw [FP.Lawful.rnd_neg, k.1]
  · rw [FP.Lawful.huge_neg]; exact k.2
example : ∃ d, Kumaraswamy.new (fin 3) (fin (1 / 2 ^ 900)) = .ok d ∧ d.median ≤ 1 := by
  have h : Kumaraswamy.new (fin 3) (fin (1 / 2 ^ 900)) = .ok ⟨fin 3, fin (1 / 2 ^ 900)⟩ :=
    Kumaraswamy.new_ok.2 ⟨lt_of_pos (by norm_num) (Is.fin _), lt_of_pos (by positivity) (Is.fin _), rfl⟩
  exact ⟨_, h, ((C236_float_median_mode_partial ⟨Is.fin 3, keep 3 0⟩ ⟨Is.fin (1 / 2 ^ 900), keep 1 900⟩).2.2.2.1 _ h).2⟩
end
end Rstat
