import Verif.Props.FloatCdf4
import Verif.Props.Dist.BetaPrime
import Verif.Props.Dist.FDist

/-! C208: beta prime and F distribution functions in rounded arithmetic: both evaluate the incomplete beta function at `t/(t+c)`. -/
namespace Rstat
open F64 Spec Consts
set_option linter.unusedSectionVars false

theorem pinf_div_pinf' [FP] : (pinf / pinf : F64) = nan := by change F64.div pinf pinf = nan; simp [F64.div, F64.isInf]

section
variable [FP] [FP.Lawful] [FP.Libm] [FP.SpecialFns]

/-- `t / u` for finite `0 ≤ t` and `t ≤ u`, `0 < u`, as computed, lies in `[0, 1]` -/
theorem ratio_unit {t u : F64} {r : ℝ} (ht : t.Is r) (hr : 0 ≤ r) (hu : 0 < u) (h : t ≤ u) : (0:F64) ≤ t / u ∧ t / u ≤ 1 := by
  rcases pos_cases hu with rfl | ⟨s, rfl, hs⟩
  · have : (t / pinf).Is 0 := by
      rcases ht with rfl | ⟨rfl, -⟩
      · change (F64.div (fin r) pinf).Is 0
        simp only [F64.div]
        rw [if_neg (show ¬ F64.isInf _ from id), if_pos (show F64.isInf pinf from trivial)]; exact szero_is _
      · change (F64.div negZero pinf).Is 0
        simp only [F64.div]
        rw [if_neg (show ¬ F64.isInf _ from id), if_pos (show F64.isInf pinf from trivial)]; exact szero_is _
    exact ⟨(Is.zero.le_iff this).2 le_rfl, (this.le_iff Is.one).2 zero_le_one⟩
  · have e := div_fin_ext ht (Is.fin s) hs.ne'
    have hrs : r ≤ s := (ht.le_iff (Is.fin s)).1 h
    exact ⟨le_congr rfl e.symm (round_nonneg (div_nonneg hr hs.le)), le_congr e.symm rfl (round_le_one ((div_le_one hs).2 hrs))⟩

theorem betainc_unit {x a b : F64} {p q : ℝ} (ha : a.Is p) (hb : b.Is q) (hp : 0 < p) (hq : 0 < q) (h0 : 0 ≤ x) (h1 : x ≤ 1) :
    (0:F64) ≤ x.betainc a b ∧ x.betainc a b ≤ 1 := by
  have z := FP.SpecialFns.betainc_zero 0 a b p q ha hb hp hq Is.zero
  have o := FP.SpecialFns.betainc_one 1 a b p q ha hb hp hq Is.one
  have m0 := FP.SpecialFns.betainc_mono 0 x a b p q ha hb hp hq (le_rfl' zero_ne_nan') h0 h1
  have m1 := FP.SpecialFns.betainc_mono x 1 a b p q ha hb hp hq h0 h1 (le_rfl' Is.one.ne_nan)
  exact ⟨le_trans' ((Is.zero.le_iff z).2 le_rfl) m0, le_trans' m1 ((o.le_iff Is.one).2 le_rfl)⟩

/-- C208: the beta prime cdf is a valid probability at every finite f64 `x ≥ 0`, and 0 at 0 -/
theorem C208_beta_prime_partial {a b : F64} {d : BetaPrime} (h : BetaPrime.new a b = .ok d) (ha : a.isFinite) (hb : b.isFinite) :
    (∀ x : F64, IsF64 x → 0 ≤ x → x.isFinite → 0 ≤ (d.cdf x).val ∧ (d.cdf x).val ≤ 1) ∧ (d.cdf 0).val.Is 0 := by
  obtain ⟨h0, h1, rfl⟩ := BetaPrime.new_ok.1 h
  obtain ⟨p, rfl, hp⟩ := finite_pos h0 ha
  obtain ⟨q, rfl, hq⟩ := finite_pos h1 hb
  refine ⟨fun x hx h0x hf => ?_, ?_⟩
  · have hr := hf.is
    have h2 := (Is.zero.le_iff hr).1 h0x
    have h3 : (1:F64) ≤ 1 + x := one_le_one_add h0x
    have h4 : x ≤ 1 + x := by
      refine le_congr rfl (add_ext Is.one hr).symm ?_
      obtain ⟨g1, g2⟩ := hx _ hr
      have g3 : (F64.round x.toReal).Is x.toReal := (round_is (by rw [g1]; exact g2)).congr g1
      exact le_trans' ((hr.le_iff g3).2 le_rfl) (round_mono (by linarith))
    obtain ⟨g1, g2⟩ := ratio_unit hr h2 (lt_of_lt_of_le' ((Is.zero.lt_iff Is.one).2 one_pos) h3) h4
    exact betainc_unit (Is.fin p) (Is.fin q) hp hq g1 g2
  · have e1 : (1 + 0 : F64).Is 1 := one_add_zero Is.zero
    have e2 : (0 / (1 + 0) : F64).Is 0 := by rw [div_finite Is.zero e1 one_ne_zero, if_pos rfl]; exact szero_is _
    exact FP.SpecialFns.betainc_zero _ _ _ p q (Is.fin p) (Is.fin q) hp hq e2

/-- C208 (violation): at `+inf` the beta prime cdf evaluates the incomplete beta function at NaN; so the result is NaN, not 1, if that
routine propagates NaN. -/
theorem C208_beta_prime_violated {a b : F64} {d : BetaPrime} (h : BetaPrime.new a b = .ok d)
    (hn : ∀ p q : F64, nan.betainc p q = nan) : (d.cdf pinf).val = nan := by
  change F64.betainc (pinf / (1 + pinf)) _ _ = nan
  rw [fin_add_pinf Is.one, pinf_div_pinf', hn]

theorem dof_bounds {k : ℕ} (h0 : 0 < k) (hk : k < 2 ^ 64) : ∃ r, (F64.ofNat k).Rep r ∧ 1 ≤ r ∧
    ∃ s, (F64.ofNat k / 2).Is s ∧ 0 < s := by
  have hk1 : (1:ℝ) ≤ k := by exact_mod_cast h0
  have hn : ∀ x : ℝ, |x| ≤ 2 ^ 64 → |FP.rnd x| ≤ 2 ^ 65 := fun x hx => by
    have h1 := FP.Lawful.rnd_err x
    have h2 : |FP.rnd x| ≤ |x| + |FP.rnd x - x| := by
      have := abs_add_le x (FP.rnd x - x); rwa [add_sub_cancel] at this
    have h3 : |x| / 2 ^ 53 ≤ 2 ^ 64 / 2 ^ 53 := by gcongr
    have h4 : (1:ℝ) / 2 ^ 1075 ≤ 1 := by rw [div_le_one (by positivity)]; exact one_le_pow₀ (by norm_num)
    have h5 : (2:ℝ) ^ 64 / 2 ^ 53 + 1 + 2 ^ 64 ≤ 2 ^ 65 := by norm_num
    linarith
  have nh : ∀ x : ℝ, |x| ≤ 2 ^ 64 → ¬ FP.huge (FP.rnd x) := fun x hx =>
    FP.Lawful.not_huge _ ((hn x hx).trans (pow_le_pow_right₀ (by norm_num) (by norm_num)))
  have hk2 : |(k:ℝ)| ≤ 2 ^ 64 := by rw [abs_of_nonneg (by positivity)]; exact_mod_cast hk.le
  have hkf : (F64.ofNat k).Is (FP.rnd k) := round_is (nh _ hk2)
  have hkr : 1 ≤ FP.rnd (k:ℝ) := by have := FP.Lawful.rnd_mono hk1; rwa [rnd_one] at this
  have rep : (F64.ofNat k).Rep (FP.rnd k) := ⟨hkf, FP.Lawful.rnd_idem _, nh _ hk2⟩
  refine ⟨_, rep, hkr, _, rep.half (by linarith), ?_⟩
  have h1 := FP.Lawful.rnd_dyadic 1 1 (by norm_num) (by norm_num)
  have h2 := FP.Lawful.rnd_mono (by linarith : (1:ℝ) / 2 ≤ FP.rnd (k:ℝ) / 2)
  norm_num at h1
  rw [h1] at h2
  linarith

/-- C208: the F cdf is a valid probability at every `x ≥ 0` for which `d1 * x` does not overflow, and 0 at 0 -/
theorem C208_f_dist_partial {k l : ℕ} {d : FDist} (h : FDist.new k l = .ok d) (hk : k < 2 ^ 64) (hl : l < 2 ^ 64) :
    (∀ x : F64, 0 ≤ x → (F64.ofNat k * x).isFinite → 0 ≤ (d.cdf x).val ∧ (d.cdf x).val ≤ 1) ∧ (d.cdf 0).val.Is 0 := by
  obtain ⟨h0, h1, rfl⟩ := FDist.new_ok.1 h
  obtain ⟨r, hr, hr1, p, hp, hp0⟩ := dof_bounds h0 hk
  obtain ⟨s, hs, hs1, q, hq, hq0⟩ := dof_bounds h1 hl
  have er : F64.ofNat k = fin r := hr.1.eq_fin (by linarith)
  have es : F64.ofNat l = fin s := hs.1.eq_fin (by linarith)
  refine ⟨fun x hx hf => ?_, ?_⟩
  · change 0 ≤ F64.betainc (F64.ofNat k * x / (F64.ofNat k * x + F64.ofNat l)) _ _ ∧ F64.betainc _ _ _ ≤ 1
    have ht0 : (0:F64) ≤ F64.ofNat k * x := by
      rw [er]
      refine le_trans' (le_congr rfl (mul_fin_ext (Is.fin r) Is.zero).symm ?_) (const_mul_mono (by linarith) hx)
      rw [mul_zero]; exact (Is.zero.le_iff round_zero_is).2 le_rfl
    have htr := hf.is
    have hrep : FP.rnd (F64.ofNat k * x).toReal = (F64.ofNat k * x).toReal ∧ ¬ FP.huge (F64.ofNat k * x).toReal := by
      rcases nonneg_cases hx with rfl | ⟨y, hy, -⟩
      · exfalso
        rw [er, const_mul_pinf (by linarith)] at hf; exact hf
      · have e := mul_fin_ext hr.1 hy
        by_cases hh : FP.huge (FP.rnd (r * y))
        · exfalso
          have e2 : F64.round (r * y) = if 0 < r * y then pinf else ninf := if_pos hh
          rw [e2] at e
          have := htr.ext_eq
          rw [this] at e
          split_ifs at e
          · exact absurd e (by simp [F64.ext])
          · exact absurd e (by simp [F64.ext])
        · have h3 : (F64.ofNat k * x).Is (FP.rnd (r * y)) := (round_is hh).of_ext e.symm
          rw [htr.eq h3]; exact ⟨FP.Lawful.rnd_idem _, hh⟩
    have h2 := (Is.zero.le_iff htr).1 ht0
    have h4 : F64.ofNat k * x ≤ F64.ofNat k * x + F64.ofNat l := by
      refine le_congr rfl (add_ext htr hs.1).symm ?_
      have g3 : (F64.round (F64.ofNat k * x).toReal).Is (F64.ofNat k * x).toReal := (round_is (by rw [hrep.1]; exact hrep.2)).congr hrep.1
      exact le_trans' ((htr.le_iff g3).2 le_rfl) (round_mono (by linarith))
    have h5 : 0 < F64.ofNat k * x + F64.ofNat l := by
      have g1 : F64.ofNat l ≤ F64.ofNat k * x + F64.ofNat l := by
        refine le_congr rfl (add_ext htr hs.1).symm ?_
        have g3 : (F64.round s).Is s := (round_is (by rw [hs.2.1]; exact hs.2.2)).congr hs.2.1
        exact le_trans' ((hs.1.le_iff g3).2 le_rfl) (round_mono (by linarith))
      exact lt_of_lt_of_le' ((Is.zero.lt_iff hs.1).2 (by linarith)) g1
    obtain ⟨g1, g2⟩ := ratio_unit htr h2 h5 h4
    exact betainc_unit hp hq hp0 hq0 g1 g2
  · have e1 : (F64.ofNat k * 0 : F64).Is 0 := by rw [mul_finite hr.1 Is.zero, if_pos (mul_zero _)]; exact szero_is _
    have e2 : (F64.ofNat k * 0 + F64.ofNat l).Is s := by
      refine (add_is e1 hs.1 ?_).congr ?_ <;> rw [zero_add]
      · rw [hs.2.1]; exact hs.2.2
      · exact hs.2.1
    refine FP.SpecialFns.betainc_zero _ _ _ p q hp hq hp0 hq0 ?_
    change (F64.ofNat k * 0 / (F64.ofNat k * 0 + F64.ofNat l)).Is 0
    rw [div_finite e1 e2 (by linarith), if_pos rfl]; exact szero_is _

/-- C208 (violation): wherever `d1 * x` overflows — at `+inf` and, for `d1 ≥ 2`, at large finite `x` — the F cdf evaluates the
incomplete beta function at NaN; so the result is NaN, not (near) 1, if that routine propagates NaN. -/
theorem C208_f_dist_violated {k l : ℕ} {d : FDist} {x : F64} (h : FDist.new k l = .ok d) (hl : l < 2 ^ 64)
    (hn : ∀ p q : F64, nan.betainc p q = nan) (hx : F64.ofNat k * x = pinf) : (d.cdf x).val = nan := by
  obtain ⟨h0, h1, rfl⟩ := FDist.new_ok.1 h
  obtain ⟨s, hs, -⟩ := dof_bounds h1 hl
  change F64.betainc (F64.ofNat k * x / (F64.ofNat k * x + F64.ofNat l)) _ _ = nan
  rw [hx, pinf_add hs.1, pinf_div_pinf', hn]
end

section
open B64
attribute [local instance] binary64 binary64_lawful B64.libm B64.specialFns

theorem b64_betainc_nan (p q : F64) : nan.betainc p q = nan := rfl

theorem betaI_one_one (t : ℝ) : Spec.betaI t 1 1 = t := by
  have e : Spec.Beta 1 1 = 1 := by
    unfold Spec.Beta
    rw [Real.Gamma_one, show (1:ℝ) + 1 = 2 by norm_num, Real.Gamma_two]; norm_num
  unfold Spec.betaI
  rw [e]; simp

/-- C208 (violation): the beta prime cdf decreases: with `alpha = beta = 1`, `cdf(2^53) = 1` but `cdf(2^53 + 2) < 1` -/
theorem C208_beta_prime_decreasing_violated : ∃ d, BetaPrime.new 1 1 = .ok d ∧
    (d.cdf (fin (2 ^ 53 + 2))).val < (d.cdf (fin (2 ^ 53))).val := by
  refine ⟨⟨1, 1⟩, BetaPrime.new_ok.2 ⟨(Is.zero.lt_iff Is.one).2 one_pos, (Is.zero.lt_iff Is.one).2 one_pos, rfl⟩, ?_⟩
  have tie : ∀ m : ℤ, 2 ^ 52 ≤ m → m < 2 ^ 53 - 1 → B64.rnd (2 * m + 1) = if Even m then 2 * (m:ℝ) else 2 * (m:ℝ) + 2 := fun m h1 h2 => by
    have h1' : (2:ℝ) ^ 52 ≤ m := by exact_mod_cast h1
    have h2' : (m:ℝ) < 2 ^ 53 - 1 := by exact_mod_cast h2
    have hu : ulpExp (2 * (m:ℝ) + 1) = 1 := ulpExp_eq 1 (by norm_num) (by norm_num; linarith) (by norm_num; linarith)
    unfold B64.rnd
    have hf : ⌊(2 * (m:ℝ) + 1) / 2 ^ (1:ℤ)⌋ = m := by
      rw [Int.floor_eq_iff]; constructor <;> norm_num <;> linarith
    have hd : (2 * (m:ℝ) + 1) / 2 ^ (1:ℤ) - m = 1 / 2 := by norm_num; ring
    rw [hu]
    unfold rne
    rw [hf, hd, if_neg (lt_irrefl _), if_neg (lt_irrefl _)]
    split_ifs <;> push_cast <;> ring
  have nh : ∀ x : ℝ, |x| ≤ 2 ^ 60 → ¬ FP.huge x := fun x hx =>
    binary64_lawful.not_huge _ (hx.trans (pow_le_pow_right₀ (by norm_num) (by norm_num)))
  have r1 : B64.rnd (1 + 2 ^ 53) = 2 ^ 53 := by
    have := tie (2 ^ 52) (by norm_num) (by norm_num)
    rw [if_pos (by decide)] at this
    rw [show (1:ℝ) + 2 ^ 53 = 2 * ((2 ^ 52 : ℤ) : ℝ) + 1 by norm_num, this]; norm_num
  have r2 : B64.rnd (1 + (2 ^ 53 + 2)) = 2 ^ 53 + 4 := by
    have := tie (2 ^ 52 + 1) (by norm_num) (by norm_num)
    rw [if_neg (by decide)] at this
    rw [show (1:ℝ) + (2 ^ 53 + 2) = 2 * ((2 ^ 52 + 1 : ℤ) : ℝ) + 1 by norm_num, this]; norm_num
  have e1 : (1 + fin (2 ^ 53) : F64) = fin (2 ^ 53) := by
    refine ((add_is Is.one (Is.fin _) ?_).congr r1).eq_fin (by norm_num)
    change ¬ FP.huge (B64.rnd _); rw [r1]; exact nh _ (by rw [abs_of_pos] <;> norm_num)
  have e2 : (1 + fin (2 ^ 53 + 2) : F64) = fin (2 ^ 53 + 4) := by
    refine ((add_is Is.one (Is.fin _) ?_).congr r2).eq_fin (by norm_num)
    change ¬ FP.huge (B64.rnd _); rw [r2]; exact nh _ (by rw [abs_of_pos] <;> norm_num)
  have d1 : (fin (2 ^ 53) / fin (2 ^ 53) : F64) = fin 1 := by
    rw [div_finite (Is.fin _) (Is.fin _) (by norm_num), if_neg (by norm_num), div_self (by norm_num)]
    exact round_one
  have d2 : (fin (2 ^ 53 + 2) / fin (2 ^ 53 + 4) : F64) = fin (1 - 1 / 2 ^ 52) := by
    rw [div_finite (Is.fin _) (Is.fin _) (by norm_num), if_neg (by norm_num)]
    refine round_eq ?_ (by rw [abs_of_pos] <;> norm_num) (by norm_num)
    have := rnd_eq (x := (2 ^ 53 + 2) / (2 ^ 53 + 4)) (2 ^ 53 - 2) (-53) (by norm_num) (by norm_num) (by norm_num)
      (by rw [abs_lt, zpow_neg]; norm_num)
    rw [this, zpow_neg]; norm_num
  have bi : ∀ t : ℝ, F64.betainc (fin t) 1 1 = F64.round t := fun t => by
    change F64.round (Spec.betaI t 1 1) = _
    rw [betaI_one_one]
  change F64.betainc (fin (2 ^ 53 + 2) / (1 + fin (2 ^ 53 + 2))) 1 1 < F64.betainc (fin (2 ^ 53) / (1 + fin (2 ^ 53))) 1 1
  rw [e1, e2, d1, d2, bi, bi, round_one]
  have r3 : F64.round (1 - 1 / 2 ^ 52) = fin (1 - 1 / 2 ^ 52) := by
    refine round_eq ?_ (by rw [abs_of_pos] <;> norm_num) (by norm_num)
    have := rnd_repr (2 ^ 53 - 2) (-53) (by norm_num) (by norm_num)
    rw [show (((2 ^ 53 - 2 : ℤ):ℝ) * 2 ^ (-53:ℤ)) = 1 - 1 / 2 ^ 52 by rw [zpow_neg]; norm_num] at this
    exact this
  rw [r3]; exact fin_lt_fin.2 (by norm_num)

example : ∃ d, BetaPrime.new (fin 3) (fin 6) = .ok d ∧ (d.cdf pinf).val = nan ∧ (d.cdf 0).val.Is 0 :=
  ⟨_, bp_ex, C208_beta_prime_violated bp_ex b64_betainc_nan, (C208_beta_prime_partial bp_ex trivial trivial).2⟩

example : ∃ d, FDist.new 3 5 = .ok d ∧ (d.cdf pinf).val = nan ∧ (d.cdf 0).val.Is 0 := by
  have h : FDist.new 3 5 = .ok ⟨3, 5⟩ := FDist.new_ok.2 ⟨by norm_num, by norm_num, rfl⟩
  refine ⟨_, h, C208_f_dist_violated h (by norm_num) b64_betainc_nan ?_, (C208_f_dist_partial h (by norm_num) (by norm_num)).2⟩
  obtain ⟨r, hr, hr1, -⟩ := dof_bounds (k := 3) (by norm_num) (by norm_num)
  rw [hr.1.eq_fin (by linarith), const_mul_pinf (by linarith)]
end
end Rstat
