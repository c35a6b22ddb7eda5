import Verif.Float.ExactInst
import Mathlib.Data.Int.Log

/-! Concrete IEEE-754 binary64 rounding (round to nearest, ties to even, gradual underflow, overflow at
2^1024) and the proof that it satisfies `FP.Lawful`. -/
namespace Rstat.B64

/-- exponent of the unit in the last place of `x` -/
noncomputable def ulpExp (x : ℝ) : ℤ := max (Int.log 2 |x| - 52) (-1074)

open Classical in
/-- nearest integer, ties to even -/
noncomputable def rne (y : ℝ) : ℤ :=
  if y - ⌊y⌋ < 1 / 2 then ⌊y⌋
  else if 1 / 2 < y - ⌊y⌋ then ⌊y⌋ + 1
  else if Even ⌊y⌋ then ⌊y⌋ else ⌊y⌋ + 1

/-- binary64 rounding before the overflow check -/
noncomputable def rnd (x : ℝ) : ℝ := rne (x / 2 ^ ulpExp x) * 2 ^ ulpExp x

theorem rne_err (y : ℝ) : |(rne y : ℝ) - y| ≤ 1 / 2 := by
  unfold rne
  have h1 := Int.floor_le y
  have h2 := Int.lt_floor_add_one y
  split_ifs with a b c <;> rw [abs_le] <;> push_cast <;> constructor <;> linarith

theorem rne_int (n : ℤ) : rne (n : ℝ) = n := by
  unfold rne; simp

theorem rne_mono : Monotone rne := by
  intro x y hxy
  have hx1 := Int.floor_le x
  have hx2 := Int.lt_floor_add_one x
  have hy1 := Int.floor_le y
  have hy2 := Int.lt_floor_add_one y
  have hf : ⌊x⌋ ≤ ⌊y⌋ := Int.floor_mono hxy
  rcases hf.eq_or_lt with h | h
  · unfold rne; rw [← h]; rw [← h] at hy1 hy2
    split_ifs <;> first | omega | (exfalso; linarith)
  · have ux : rne x ≤ ⌊x⌋ + 1 := by unfold rne; split_ifs <;> omega
    have uy : ⌊y⌋ ≤ rne y := by unfold rne; split_ifs <;> omega
    omega

theorem rne_neg (y : ℝ) : rne (-y) = - rne y := by
  have h1 := Int.floor_le y
  have h2 := Int.lt_floor_add_one y
  by_cases hint : y = ⌊y⌋
  · rw [hint, ← Int.cast_neg, rne_int, rne_int]
  · have hlt : (⌊y⌋ : ℝ) < y := lt_of_le_of_ne h1 (Ne.symm hint)
    have hfl : ⌊-y⌋ = -⌊y⌋ - 1 := by
      rw [Int.floor_eq_iff]; push_cast; constructor <;> linarith
    unfold rne
    rw [hfl]
    push_cast
    split_ifs with a b c d e f g k l m <;>
      first
      | omega
      | (exfalso; linarith)
      | (exfalso; rw [Int.even_iff] at *; omega)

theorem ulpExp_neg (x : ℝ) : ulpExp (-x) = ulpExp x := by unfold ulpExp; rw [abs_neg]

theorem rnd_neg (x : ℝ) : rnd (-x) = - rnd x := by
  unfold rnd; rw [ulpExp_neg, neg_div, rne_neg]; push_cast; ring

theorem two_zpow_pos (e : ℤ) : (0:ℝ) < 2 ^ e := by positivity

theorem abs_lt_ulp (x : ℝ) : |x| < 2 ^ (ulpExp x + 53) := by
  have h := Int.lt_zpow_succ_log_self (b := 2) (by norm_num) |x|
  refine lt_of_lt_of_le h ?_
  push_cast
  apply zpow_le_zpow_right₀ (by norm_num)
  unfold ulpExp
  have := le_max_left (Int.log 2 |x| - 52) (-1074)
  omega

/-- numbers `m * 2^e` with a 53-bit `m` and `e ≥ -1074` are fixed by rounding -/
theorem rnd_repr (m e : ℤ) (hm : |m| ≤ 2 ^ 53) (he : -1074 ≤ e) :
    rnd ((m : ℝ) * 2 ^ e) = (m : ℝ) * 2 ^ e := by
  by_cases hm0 : m = 0
  · subst hm0; unfold rnd; simp [show rne (0:ℝ) = 0 by simpa using rne_int 0]
  set x : ℝ := (m : ℝ) * 2 ^ e with hx
  have hx0 : x ≠ 0 := by rw [hx]; exact mul_ne_zero (by exact_mod_cast hm0) (two_zpow_pos e).ne'
  have key : ∃ k : ℤ, x = k * 2 ^ ulpExp x := by
    by_cases hle : ulpExp x ≤ e
    · refine ⟨m * 2 ^ (e - ulpExp x).toNat, ?_⟩
      generalize ulpExp x = u at hle ⊢
      push_cast
      rw [hx, mul_assoc, ← zpow_natCast, Int.toNat_of_nonneg (by omega), ← zpow_add₀ (by norm_num)]
      congr 2; ring
    · push Not at hle
      have hlog : ulpExp x = Int.log 2 |x| - 52 := by
        unfold ulpExp at hle ⊢
        rcases max_choice (Int.log 2 |x| - 52) (-1074) with h | h
        · exact h
        · rw [h] at hle; omega
      have habs : |x| = |(m:ℝ)| * 2 ^ e := by rw [hx, abs_mul, abs_of_pos (two_zpow_pos e)]
      have hge : (2:ℝ) ^ (e + 53) ≤ |x| := by
        have h := Int.zpow_log_le_self (b := 2) (R := ℝ) (by norm_num) (abs_pos.2 hx0)
        push_cast at h
        refine le_trans (zpow_le_zpow_right₀ (by norm_num) ?_) h
        omega
      have hm53 : |(m:ℝ)| = 2 ^ 53 := by
        apply le_antisymm
        · exact_mod_cast hm
        · rw [habs, zpow_add₀ (by norm_num), mul_comm] at hge
          exact_mod_cast le_of_mul_le_mul_right hge (two_zpow_pos e)
      have hxv : |x| = ((2:ℕ):ℝ) ^ (e + 53) := by
        rw [habs, hm53]; push_cast; rw [zpow_add₀ (by norm_num), mul_comm]; norm_cast
      have hl : Int.log 2 |x| = e + 53 := by
        rw [hxv]; exact Int.log_zpow (by norm_num) _
      have hu : ulpExp x = e + 1 := by rw [hlog, hl]; ring
      refine ⟨m / 2, ?_⟩
      have h2 : (2:ℤ) ∣ m := by
        have : |m| = 2 ^ 53 := by exact_mod_cast hm53
        rw [← dvd_abs, this]; norm_num
      obtain ⟨q, hq⟩ := h2
      rw [hu, hq, Int.mul_ediv_cancel_left _ (by norm_num), hx, hq, zpow_add₀ (by norm_num)]
      push_cast; ring
  obtain ⟨k, hk⟩ := key
  unfold rnd
  have : x / 2 ^ ulpExp x = (k:ℝ) := by rw [div_eq_iff (two_zpow_pos _).ne']; exact hk
  rw [this, rne_int]; exact hk.symm

theorem ulpExp_ge (x : ℝ) : -1074 ≤ ulpExp x := le_max_right _ _

theorem rnd_zero : rnd 0 = 0 := by simpa using rnd_repr 0 0 (by norm_num) (by norm_num)

theorem rnd_idem (x : ℝ) : rnd (rnd x) = rnd x := by
  by_cases hx : x = 0
  · rw [hx, rnd_zero, rnd_zero]
  refine rnd_repr (rne (x / 2 ^ ulpExp x)) (ulpExp x) ?_ (ulpExp_ge x)
  have h := abs_lt_ulp x
  have hb : |x / 2 ^ ulpExp x| < 2 ^ 53 := by
    rw [abs_div, abs_of_pos (two_zpow_pos _), div_lt_iff₀ (two_zpow_pos _)]
    rw [zpow_add₀ (by norm_num)] at h
    rw [mul_comm]; exact_mod_cast h
  rw [abs_lt] at hb
  rw [abs_le]
  constructor
  · have := rne_mono hb.1.le
    have e : rne (-(2:ℝ) ^ 53) = -(2:ℤ) ^ 53 := by
      have := rne_int (-(2:ℤ) ^ (53:ℕ)); norm_num at this ⊢; exact this
    rw [e] at this; exact this
  · have := rne_mono hb.2.le
    have e : rne ((2:ℝ) ^ 53) = (2:ℤ) ^ 53 := by
      have := rne_int ((2:ℤ) ^ (53:ℕ)); norm_num at this ⊢; exact this
    rw [e] at this; exact this

theorem rnd_nonneg {x : ℝ} (hx : 0 ≤ x) : 0 ≤ rnd x := by
  unfold rnd
  have h0 : rne (0:ℝ) ≤ rne (x / 2 ^ ulpExp x) := rne_mono (by positivity)
  have : rne (0:ℝ) = 0 := by simpa using rne_int 0
  rw [this] at h0
  have : (0:ℝ) ≤ (rne (x / 2 ^ ulpExp x) : ℝ) := by exact_mod_cast h0
  positivity

theorem ulpExp_mono {x y : ℝ} (hx : 0 < x) (hxy : x ≤ y) : ulpExp x ≤ ulpExp y := by
  unfold ulpExp
  have hy : 0 < y := lt_of_lt_of_le hx hxy
  rw [abs_of_pos hx, abs_of_pos hy]
  have := Int.log_mono_right (b := 2) hx hxy
  exact max_le_max (by omega) le_rfl

theorem rnd_mono_pos {x y : ℝ} (hx : 0 < x) (hxy : x ≤ y) : rnd x ≤ rnd y := by
  have hy : 0 < y := lt_of_lt_of_le hx hxy
  rcases (ulpExp_mono hx hxy).eq_or_lt with h | h
  · unfold rnd; rw [h]
    apply mul_le_mul_of_nonneg_right _ (two_zpow_pos _).le
    exact_mod_cast rne_mono (by gcongr)
  · -- the power of two separating the binades
    have hlog : ulpExp y = Int.log 2 |y| - 52 := by
      have := ulpExp_ge x
      unfold ulpExp at h this ⊢
      rcases max_choice (Int.log 2 |y| - 52) (-1074) with h' | h'
      · exact h'
      · rw [h'] at h; omega
    have hyp : (2:ℝ) ^ (ulpExp y + 52) ≤ y := by
      have h' := Int.zpow_log_le_self (b := 2) (R := ℝ) (by norm_num) (abs_pos.2 hy.ne')
      rw [abs_of_pos hy] at h' hlog
      push_cast at h'
      rwa [hlog, sub_add_cancel]
    have hxu : x < 2 ^ (ulpExp y + 52) := by
      have := abs_lt_ulp x
      rw [abs_of_pos hx] at this
      exact lt_of_lt_of_le this (zpow_le_zpow_right₀ (by norm_num) (by omega))
    have hry : (2:ℝ) ^ (ulpExp y + 52) ≤ rnd y := by
      unfold rnd
      rw [zpow_add₀ (by norm_num), mul_comm]
      apply mul_le_mul_of_nonneg_right _ (two_zpow_pos _).le
      have : rne (2 ^ 52 : ℝ) ≤ rne (y / 2 ^ ulpExp y) := by
        apply rne_mono
        rw [le_div_iff₀ (two_zpow_pos _)]
        rw [zpow_add₀ (by norm_num), mul_comm] at hyp
        exact_mod_cast hyp
      have e : rne ((2:ℝ) ^ 52) = (2:ℤ) ^ 52 := by
        have := rne_int ((2:ℤ) ^ (52:ℕ)); norm_num at this ⊢; exact this
      rw [e] at this
      exact_mod_cast this
    have hrx : rnd x ≤ 2 ^ (ulpExp y + 52) := by
      unfold rnd
      have hn : ∃ n : ℕ, (n : ℤ) = ulpExp y + 52 - ulpExp x := ⟨(ulpExp y + 52 - ulpExp x).toNat, by
        rw [Int.toNat_of_nonneg]; omega⟩
      obtain ⟨n, hn⟩ := hn
      have hsplit : (2:ℝ) ^ (ulpExp y + 52) = 2 ^ n * 2 ^ ulpExp x := by
        rw [← zpow_natCast, ← zpow_add₀ (by norm_num), hn]; congr 1; ring
      rw [hsplit]
      apply mul_le_mul_of_nonneg_right _ (two_zpow_pos _).le
      have : rne (x / 2 ^ ulpExp x) ≤ rne (2 ^ n : ℝ) := by
        apply rne_mono
        rw [div_le_iff₀ (two_zpow_pos _), ← hsplit]; exact hxu.le
      have e : rne (2 ^ n : ℝ) = 2 ^ n := by exact_mod_cast rne_int (2 ^ n)
      rw [e] at this
      exact_mod_cast this
    exact hrx.trans hry

theorem rnd_mono : Monotone rnd := by
  intro x y hxy
  rcases lt_trichotomy x 0 with hx | hx | hx
  · rcases le_or_gt 0 y with hy | hy
    · have h1 := rnd_nonneg (x := -x) (by linarith)
      rw [rnd_neg] at h1
      have h2 := rnd_nonneg hy
      linarith
    · have := rnd_mono_pos (x := -y) (y := -x) (by linarith) (by linarith)
      rw [rnd_neg, rnd_neg] at this; linarith
  · subst hx; rw [rnd_zero]; exact rnd_nonneg hxy
  · exact rnd_mono_pos hx hxy

theorem rnd_err (x : ℝ) : |rnd x - x| ≤ |x| / 2 ^ 53 + 1 / 2 ^ 1075 := by
  by_cases hx : x = 0
  · rw [hx, rnd_zero, sub_self, abs_zero]; positivity
  have h1 : |rnd x - x| ≤ 2 ^ ulpExp x / 2 := by
    have he := rne_err (x / 2 ^ ulpExp x)
    have hp := two_zpow_pos (ulpExp x)
    have : rnd x - x = ((rne (x / 2 ^ ulpExp x) : ℝ) - x / 2 ^ ulpExp x) * 2 ^ ulpExp x := by
      unfold rnd; field_simp
    rw [this, abs_mul, abs_of_pos hp]
    nlinarith
  refine h1.trans ?_
  rcases max_choice (Int.log 2 |x| - 52) (-1074) with h | h
  · have hu : ulpExp x = Int.log 2 |x| - 52 := h
    have h' := Int.zpow_log_le_self (b := 2) (R := ℝ) (by norm_num) (abs_pos.2 hx)
    push_cast at h'
    have : (2:ℝ) ^ ulpExp x / 2 = 2 ^ (Int.log 2 |x|) / 2 ^ 53 := by
      rw [hu, zpow_sub₀ (by norm_num)]
      have : (2:ℝ) ^ (52:ℤ) = 2 ^ 52 := by norm_cast
      rw [this, div_div]; norm_num
    rw [this]
    have h2 : (2:ℝ) ^ (Int.log 2 |x|) / 2 ^ 53 ≤ |x| / 2 ^ 53 := by gcongr
    exact h2.trans (le_add_of_nonneg_right (by positivity))
  · have hu : ulpExp x = -1074 := h
    have : (2:ℝ) ^ ulpExp x / 2 = 1 / 2 ^ 1075 := by
      have e1 : (2:ℝ) ^ (1075:ℕ) = 2 ^ (1074:ℕ) * 2 := pow_succ (2:ℝ) 1074
      have e2 : (2:ℝ) ^ (-1074:ℤ) = ((2:ℝ) ^ (1074:ℕ))⁻¹ := by
        rw [show (-1074:ℤ) = -((1074:ℕ):ℤ) by norm_num, zpow_neg, zpow_natCast]
      rw [hu, e1, e2, one_div, mul_inv, div_eq_mul_inv]
    rw [this]
    have : (0:ℝ) ≤ |x| / 2 ^ 53 := by positivity
    linarith

end Rstat.B64

namespace Rstat

/-- binary64 rounding and overflow, with the exact special functions of `exactFP` -/
@[reducible] noncomputable def B64.base : FP :=
  { exactFP with
    rnd := B64.rnd
    huge := fun y => (2:ℝ) ^ 1024 ≤ |y| }

/-- a correctly rounded special function of one argument with the given values at the infinities -/
noncomputable def B64.special (lo hi : F64) (f : ℝ → ℝ) : F64 → F64
  | .nan => .nan
  | .pinf => hi
  | .ninf => lo
  | .negZero => @F64.round B64.base (f 0)
  | .fin r => @F64.round B64.base (f r)

/-- IEEE-754 binary64 with round-to-nearest-even. The libm and special-function routines are taken to be the correctly
rounded mathematical functions (an idealisation of glibc and cephes, used only to show the contracts satisfiable and for
the `_binary64` counterexamples). -/
@[reducible] noncomputable def binary64 : FP :=
  { B64.base with
    sErf := B64.special (.fin (-1)) (.fin 1) Spec.erf
    sErfc := B64.special (.fin 2) (.fin 0) (fun x => 1 - Spec.erf x)
    sGamma := B64.special .nan .pinf Real.Gamma
    sLogGamma := B64.special .nan .pinf (fun x => Real.log (Real.Gamma x))
    sDigamma := B64.special .nan .pinf Spec.digamma
    sBeta := fun a b => @F64.round B64.base (Spec.Beta a.toReal b.toReal)
    sLogBeta := fun a b => @F64.round B64.base (Real.log (Spec.Beta a.toReal b.toReal))
    sGammainc := fun a => B64.special .nan (.fin 1) (Spec.gammaP a.toReal)
    sBetainc := fun x a b => B64.special .nan .nan (fun t => Spec.betaI t a.toReal b.toReal) x
    sNorm := B64.special (.fin 0) (.fin 1) Spec.Phi
    sNormInv := fun a => @F64.round B64.base (Function.invFun Spec.Phi a.toReal)
    sHyp2f1 := fun a b c x => @F64.round B64.base (Spec.hyp2f1 a.toReal b.toReal c.toReal x.toReal) }

/-- Real binary64 rounding satisfies every law used by the `[FP.Lawful]` theorems. -/
theorem binary64_lawful : @FP.Lawful binary64 := by
  let _ := binary64
  refine { rnd_mono := B64.rnd_mono, rnd_neg := B64.rnd_neg, rnd_idem := B64.rnd_idem,
           rnd_dyadic := ?_, rnd_err := B64.rnd_err, not_huge := ?_, huge_neg := ?_, huge_mono := ?_ }
  · intro m e hm he
    have := B64.rnd_repr m (-(e:ℤ)) hm (by omega)
    rw [zpow_neg, zpow_natCast, ← div_eq_mul_inv] at this
    exact this
  · intro x hx h
    have h' : (2:ℝ) ^ 1024 ≤ |x| := h
    have : (2:ℝ) ^ 1024 ≤ 2 ^ 1023 := h'.trans hx
    have h3 : (2:ℝ) ^ 1023 < 2 ^ 1024 := pow_lt_pow_right₀ (by norm_num) (by norm_num)
    exact absurd this (not_le.2 h3)
  · intro x
    show (2:ℝ) ^ 1024 ≤ |(-x)| ↔ (2:ℝ) ^ 1024 ≤ |x|
    rw [abs_neg]
  · intro x y hxy h
    exact le_trans h hxy

end Rstat
