import Verif.Float.Binary64
import Verif.Lemmas.FloatMono
import Verif.Lemmas.Gaussian
import Verif.Lemmas.Dist.Gamma2
import Verif.Lemmas.Dist.Beta

/-! binary64 satisfies the libm and special-function contracts. -/
namespace Rstat
open Set
namespace B64

theorem libm : @FP.Libm binary64 := by
  have h := @exactLibm exactFP exactFP_exact
  exact @FP.Libm.mk binary64 h.exp_mono h.exp_zero h.exp_nonneg h.ln_mono h.ln_one h.pow_mono h.pow_anti h.pow_one
    h.pow_nonneg h.atan_mono h.atan_zero h.atan_le h.atan_ge h.asin_mono h.asin_zero h.asin_one

attribute [local instance] binary64 binary64_lawful
open F64

theorem special_is {lo hi : F64} {f : ℝ → ℝ} {a : F64} {r : ℝ} (ha : a.Is r) : special lo hi f a = F64.round (f r) := by
  rcases ha with rfl | ⟨rfl, rfl⟩ <;> rfl

theorem special_mono {lo hi : ℝ} {f : ℝ → ℝ} {a b : F64} (hf : Monotone f) (hlo : ∀ x, lo ≤ f x) (hhi : ∀ x, f x ≤ hi)
    (rlo : FP.rnd lo = lo) (rhi : FP.rnd hi = hi) (nlo : ¬ FP.huge lo) (nhi : ¬ FP.huge hi) (h : a ≤ b) :
    special (fin lo) (fin hi) f a ≤ special (fin lo) (fin hi) f b := by
  obtain ⟨ha, hb, h⟩ := le_cases.1 h
  rcases h with rfl | rfl | ⟨r, s, hr, hs, h⟩
  · cases b with
    | nan => exact absurd rfl hb
    | pinf => exact fin_le_fin.2 ((hlo 0).trans (hhi 0))
    | ninf => exact fin_le_fin.2 le_rfl
    | negZero => exact le_round_of_le (hlo _) rlo nlo
    | fin r => exact le_round_of_le (hlo _) rlo nlo
  · cases a with
    | nan => exact absurd rfl ha
    | pinf => exact fin_le_fin.2 le_rfl
    | ninf => exact fin_le_fin.2 ((hlo 0).trans (hhi 0))
    | negZero => exact round_le_of_le (hhi _) rhi nhi
    | fin r => exact round_le_of_le (hhi _) rhi nhi
  · rw [special_is hr, special_is hs]; exact round_mono (hf h)

theorem special_anti {lo hi : ℝ} {f : ℝ → ℝ} {a b : F64} (hf : Antitone f) (hlo : ∀ x, f x ≤ lo) (hhi : ∀ x, hi ≤ f x)
    (rlo : FP.rnd lo = lo) (rhi : FP.rnd hi = hi) (nlo : ¬ FP.huge lo) (nhi : ¬ FP.huge hi) (h : a ≤ b) :
    special (fin lo) (fin hi) f b ≤ special (fin lo) (fin hi) f a := by
  obtain ⟨ha, hb, h⟩ := le_cases.1 h
  rcases h with rfl | rfl | ⟨r, s, hr, hs, h⟩
  · cases b with
    | nan => exact absurd rfl hb
    | pinf => exact fin_le_fin.2 ((hhi 0).trans (hlo 0))
    | ninf => exact fin_le_fin.2 le_rfl
    | negZero => exact round_le_of_le (hlo _) rlo nlo
    | fin r => exact round_le_of_le (hlo _) rlo nlo
  · cases a with
    | nan => exact absurd rfl ha
    | pinf => exact fin_le_fin.2 le_rfl
    | ninf => exact fin_le_fin.2 ((hhi 0).trans (hlo 0))
    | negZero => exact le_round_of_le (hhi _) rhi nhi
    | fin r => exact le_round_of_le (hhi _) rhi nhi
  · rw [special_is hr, special_is hs]; exact round_mono (hf h)

theorem erf_mem (x : ℝ) : -1 ≤ Spec.erf x ∧ Spec.erf x ≤ 1 :=
  ⟨Spec.erf_strictMono.monotone.le_of_tendsto Spec.erf_tendsto_bot x,
    Spec.erf_strictMono.monotone.ge_of_tendsto Spec.erf_tendsto_top x⟩

theorem rnd_two : FP.rnd (2:ℝ) = 2 := by
  have := rnd_natCast 2 (by norm_num); exact_mod_cast this
theorem rnd_neg_one : FP.rnd (-1:ℝ) = -1 := by rw [FP.Lawful.rnd_neg, rnd_one]
theorem not_huge_two : ¬ FP.huge (2:ℝ) := FP.Lawful.not_huge 2 (by
  rw [abs_of_pos two_pos]; exact le_self_pow₀ (by norm_num) (by norm_num))
theorem not_huge_neg_one : ¬ FP.huge (-1:ℝ) := by rw [FP.Lawful.huge_neg]; exact not_huge_one

theorem gammaP_mono {k x y : ℝ} (hk : 0 < k) (hx : 0 ≤ x) (h : x ≤ y) : Spec.gammaP k x ≤ Spec.gammaP k y := by
  rcases hx.eq_or_lt with rfl | hx
  · rw [Spec.gammaP_zero]
    rcases h.eq_or_lt with rfl | h
    · rw [Spec.gammaP_zero]
    · exact (Spec.gammaP_pos hk h).le
  · rcases h.eq_or_lt with rfl | h
    · rfl
    · exact (Spec.gammaP_strictMono hk hx h).le
theorem gammaP_le_one {k x : ℝ} (hk : 0 < k) (hx : 0 ≤ x) : Spec.gammaP k x ≤ 1 := by
  rcases hx.eq_or_lt with rfl | hx
  · rw [Spec.gammaP_zero]; norm_num
  · exact (Spec.gammaP_lt_one hk hx).le

theorem betaI_mono {a b x y : ℝ} (ha : 0 < a) (hb : 0 < b) (hx : 0 ≤ x) (h : x ≤ y) (hy : y ≤ 1) :
    Spec.betaI x a b ≤ Spec.betaI y a b := by
  have hF := (Spec.beta_density ha hb).1
  have e : ∀ z, 0 ≤ z → z ≤ 1 → Spec.betaCDF a b z = Spec.betaI z a b := fun z h0 h1 => by
    rw [Spec.betaCDF, if_neg (not_lt.2 h0)]
    split_ifs with h
    · have : z = 1 := le_antisymm h1 h
      rw [this, Spec.betaI_one ha hb]
    · rfl
  rw [← e x hx (h.trans hy), ← e y (hx.trans h) hy]; exact hF.mono h

theorem specialFns : @FP.SpecialFns binary64 where
  norm_mono a b h := special_mono Spec.Phi_strictMono.monotone (fun x => (Spec.Phi_mem x).1.le) (fun x => (Spec.Phi_mem x).2.le)
    rnd_zero rnd_one not_huge_zero not_huge_one h
  norm_bot := Is.fin 0
  norm_top := Is.fin 1
  erf_mono a b h := special_mono Spec.erf_strictMono.monotone (fun x => (erf_mem x).1) (fun x => (erf_mem x).2)
    rnd_neg_one rnd_one not_huge_neg_one not_huge_one h
  erf_top := Is.fin 1
  erf_odd a r h := by
    have key : ∀ x : ℝ, (F64.round (Spec.erf x)).Is r → (F64.round (Spec.erf (-x))).Is (-r) := fun x h => by
      have hb := erf_mem x
      have h1 := round_is_of_le (r := Spec.erf x) 1 (by norm_num) (by rw [abs_le]; exact_mod_cast hb)
      have h2 := round_is_of_le (r := Spec.erf (-x)) 1 (by norm_num) (by
        rw [Spec.erf_neg, abs_neg, abs_le]; exact_mod_cast hb)
      rw [h.eq h1]
      refine h2.congr ?_
      rw [Spec.erf_neg, FP.Lawful.rnd_neg]
    cases a with
    | nan => rcases h with h | ⟨h, _⟩ <;> cases h
    | pinf => have := h.eq (Is.fin 1); subst this; exact Is.fin _
    | ninf => have := h.eq (Is.fin (-1)); subst this; exact (Is.fin 1).congr (by norm_num)
    | negZero => 
      have := key 0 h
      rw [neg_zero] at this; exact this
    | fin x =>
      have h3 := key x h
      change (special _ _ _ (-(fin x))).Is _
      rw [special_is (Is.fin x).neg]; exact h3
  erfc_anti a b h := special_anti (fun x y h => by have := Spec.erf_strictMono.monotone h; linarith)
    (fun x => by have := (erf_mem x).1; linarith) (fun x => by have := (erf_mem x).2; linarith)
    rnd_two rnd_zero not_huge_two not_huge_zero h
  erfc_zero a h := by
    change (special _ _ _ a).Is 1
    rw [special_is h, Spec.erf_zero, sub_zero]; exact round_one_is
  erfc_top := Is.fin 0
  gammainc_mono k a b r hk h0 ha h := by
    change special _ _ (Spec.gammaP k.toReal) a ≤ special _ _ (Spec.gammaP k.toReal) b
    rw [hk.toReal_eq]
    rcases nonneg_cases ha with rfl | ⟨s, hs, hs0⟩
    · have : b = pinf := by
        rcases (le_cases.1 h).2.2 with h | h | ⟨r, s, hr, _⟩
        · cases h
        · exact h
        · rcases hr with h | ⟨h, _⟩ <;> cases h
      subst this; exact fin_le_fin.2 le_rfl
    · rcases nonneg_cases (le_trans' ha h) with rfl | ⟨t, ht, ht0⟩
      · rw [special_is hs]; exact round_le_one (gammaP_le_one h0 hs0)
      · rw [special_is hs, special_is ht]; exact round_mono (gammaP_mono h0 hs0 ((hs.le_iff ht).1 h))
  gammainc_zero k a r hk h0 ha := by
    change (special _ _ (Spec.gammaP k.toReal) a).Is 0
    rw [special_is ha, Spec.gammaP_zero]; exact round_zero_is
  gammainc_top k r hk h0 := Is.fin 1
  betainc_mono x y a b r s ha hb hr hs hx h hy := by
    obtain ⟨hu, hu0, hu1⟩ := is_of_le_le Is.zero Is.one hx (le_trans' h hy)
    obtain ⟨hv, hv0, hv1⟩ := is_of_le_le Is.zero Is.one (le_trans' hx h) hy
    change B64.special _ _ _ _ ≤ B64.special _ _ _ _
    rw [special_is hu, special_is hv, ha.toReal_eq, hb.toReal_eq]
    exact round_mono (betaI_mono hr hs hu0 ((hu.le_iff hv).1 h) hv1)
  betainc_zero x a b r s ha hb hr hs hx := by
    change (B64.special _ _ _ _).Is 0
    rw [special_is hx, ha.toReal_eq, hb.toReal_eq, Spec.betaI_zero]; exact round_zero_is
  betainc_one x a b r s ha hb hr hs hx := by
    change (B64.special _ _ _ _).Is 1
    rw [special_is hx, ha.toReal_eq, hb.toReal_eq, Spec.betaI_one hr hs]; exact round_one_is

end B64
end Rstat
