import Verif.Props.FloatPmf2
import Verif.Lemmas.Utils

/-! Properties C249 and C250, continued: the discrete uniform law beyond its range, and the Poisson law. -/
set_option linter.unusedSectionVars false
namespace Rstat
open F64 Spec

section
open B64
attribute [local instance] binary64 binary64_lawful B64.libm B64.specialFns

/-- C249 is violated by the discrete uniform law in release builds: the interval of the 2^63 integers from `lb ≤ 0` is accepted, and the mass
of each of its points is the negative number -2^-63. -/
theorem C249_uniform_int_violated {lb k : ℤ} (h0 : lb ≤ 0) (hm : -2 ^ 63 ≤ lb) (hk1 : lb ≤ k) (hk2 : k ≤ lb + (2 ^ 63 - 1)) :
    ∃ d P, UniformI.new .release lb (2 ^ 63 - 1) = .ok (.ok d) ∧ d.pmf .release k = .ok P ∧ P.unwrap.Is (-(1 / 2 ^ 63)) ∧ ¬ InUnit P.unwrap := by
  have hw : i64wrap ((2 ^ 63 - 1 : ℕ) : ℤ) = 2 ^ 63 - 1 := by unfold i64wrap; norm_num
  have hs : Scale.newI (2 ^ 63 - 1 : ℤ) = .ok (2 ^ 63 - 1) := (Scale.newI_ok _ _).2 ⟨by norm_num, rfl⟩
  have hn : ¬ (I64MIN ≤ (2 ^ 63 - 1 + 1 : ℤ) ∧ (2 ^ 63 - 1 + 1 : ℤ) ≤ I64MAX) := by unfold I64MIN I64MAX; norm_num
  have hwr : i64wrap (2 ^ 63 - 1 + 1) = -2 ^ 63 := by unfold i64wrap; norm_num
  have hX : (F64.ofInt (-2 ^ 63)).Is (-2 ^ 63) := by
    have h1 := ofInt_is (n := -2 ^ 63) (by norm_num)
    refine h1.congr ?_
    have := rnd_repr (-1) 63 (by norm_num) (by norm_num)
    rw [show (((-1:ℤ)):ℝ) * 2 ^ (63:ℤ) = -2 ^ 63 by norm_num] at this
    rw [show (((-2 ^ 63 : ℤ)) : ℝ) = -2 ^ 63 by norm_num]
    exact this
  have hP : (1 / F64.ofInt (-2 ^ 63)).Is (-(1 / 2 ^ 63)) := by
    have hr : FP.rnd ((1:ℝ) / (-2 ^ 63)) = -(1 / 2 ^ 63) := by
      have := FP.Lawful.rnd_dyadic (-1) 63 (by norm_num) (by norm_num)
      rw [show ((1:ℝ) / (-2 ^ 63)) = ((-1:ℤ):ℝ) / 2 ^ 63 by norm_num, this]; norm_num
    have := div_is Is.one hX (by norm_num) (by rw [hr]; exact FP.Lawful.not_huge _ (by
      refine le_trans ?_ (one_le_pow₀ (n := 1023) (by norm_num : (1:ℝ) ≤ 2))
      rw [abs_neg, abs_of_pos (by positivity)]; norm_num))
    rwa [hr] at this
  refine ⟨⟨lb, 2 ^ 63 - 1, 1 / F64.ofInt (-2 ^ 63)⟩, ⟨1 / F64.ofInt (-2 ^ 63)⟩, ?_, ?_, hP, ?_⟩
  · unfold UniformI.new; rw [hw, hs]; simp only [i64chk, if_neg hn, exc_ok_bind]
    rw [hwr]
  · unfold UniformI.pmf
    simp only
    rw [i64chk_ok ⟨by unfold I64MIN; omega, by unfold I64MAX; omega⟩, exc_ok_bind, if_neg (by omega)]
    rfl
  · rintro ⟨r, hr, h1, -⟩
    have := hr.toReal_eq.symm.trans hP.toReal_eq
    rw [this] at h1; norm_num at h1

/-! ### Poisson: large rates -/

/-- bounds on `log 2` to 18 digits, from the series used for the table of `ln k!` -/
theorem log_two_tight : (69314718055994530934 : ℝ) / 10 ^ 20 ≤ Real.log 2 ∧ Real.log 2 ≤ 69314718055994530957 / 10 ^ 20 := by
  have h := stepLo_bounds 1 le_rfl
  have e1 : stepLo 1 = 69314718055994530934 := by decide +kernel
  rw [e1] at h
  norm_num at h
  constructor <;> linarith [h.1, h.2]

/-- `ln` near 2^60 -/
theorem ln_near {c : ℝ} (h0 : 0 ≤ c) (m : ℤ)
    (h1 : (m:ℝ) - 49 / 100 ≤ 60 * (69314718055994530934 / 10 ^ 20) * 2 ^ 47 + c / (2 ^ 60 + c) * 2 ^ 47)
    (h2 : 60 * (69314718055994530957 / 10 ^ 20) * 2 ^ 47 + c / 2 ^ 60 * 2 ^ 47 ≤ (m:ℝ) + 49 / 100)
    (h3 : 2 ^ 52 + 1 ≤ m) (h4 : m ≤ 2 ^ 53 - 1) :
    (F64.fin (2 ^ 60 + c)).ln = fin (m / 2 ^ 47) := by
  have hx : Real.log (2 ^ 60 + c) = 60 * Real.log 2 + Real.log (1 + c / 2 ^ 60) := by
    rw [show (2:ℝ) ^ 60 + c = 2 ^ 60 * (1 + c / 2 ^ 60) by field_simp, Real.log_mul (by positivity) (by positivity), Real.log_pow]
    norm_num
  have l1 : Real.log (1 + c / 2 ^ 60) ≤ c / 2 ^ 60 := by
    have := Real.log_le_sub_one_of_pos (show 0 < 1 + c / 2 ^ 60 by positivity); linarith
  have l2 : c / (2 ^ 60 + c) ≤ Real.log (1 + c / 2 ^ 60) := by
    have := Real.one_sub_inv_le_log_of_pos (show 0 < 1 + c / 2 ^ 60 by positivity)
    have e : 1 - (1 + c / 2 ^ 60)⁻¹ = c / (2 ^ 60 + c) := by field_simp; ring
    rwa [e] at this
  obtain ⟨t1, t2⟩ := log_two_tight
  have b1 : (m:ℝ) - 49 / 100 ≤ Real.log (2 ^ 60 + c) * 2 ^ 47 := by
    refine h1.trans ?_
    rw [hx, add_mul]
    gcongr
  have b2 : Real.log (2 ^ 60 + c) * 2 ^ 47 ≤ (m:ℝ) + 49 / 100 := by
    refine le_trans ?_ h2
    rw [hx, add_mul]
    gcongr
  have m1 : (2:ℝ) ^ 52 + 1 ≤ m := by exact_mod_cast h3
  have m2 : (m:ℝ) ≤ 2 ^ 53 - 1 := by exact_mod_cast h4
  have hr : rnd (Real.log (2 ^ 60 + c)) = m / 2 ^ 47 := by
    have := rnd_eq (x := Real.log (2 ^ 60 + c)) m (-47) (by norm_num) (by norm_num; linarith) (by norm_num; linarith) (by
      rw [show (2:ℝ) ^ (-47:ℤ) = 1 / 2 ^ 47 by norm_num, div_div_eq_mul_div, div_one, abs_lt]
      constructor <;> linarith)
    rw [this]; norm_num; ring
  have hpos : (0:ℝ) < 2 ^ 60 + c := by positivity
  have hv : (0:ℝ) < m / 2 ^ 47 := by apply div_pos _ (by positivity); linarith
  have hle : (m:ℝ) / 2 ^ 47 ≤ 2 ^ 60 := by rw [div_le_iff₀ (by positivity)]; linarith
  unfold F64.ln F64.logWith
  dsimp only
  rw [if_neg hpos.ne', if_neg (not_lt.2 hpos.le)]
  exact round_val hr (lt1024 (by rw [abs_of_pos hv]; exact hle)) hv.ne'

theorem near66 {v : ℝ} (h : |v| ≤ 2 ^ 66) : |v| < 2 ^ 1024 := lt_of_le_of_lt h (pow_lt_pow_right₀ (by norm_num) (by norm_num))

/-- adding a number below half a unit in the last place -/
theorem absorb {m : ℤ} {c : ℝ} {C : F64} (hC : C.Is c) (h1 : (2:ℤ) ^ 52 + 1 ≤ m) (h2 : m ≤ 2 ^ 53 - 2) (hc0 : 0 ≤ c) (hc : c ≤ 4) :
    fin (m * 2 ^ 13) + C = fin (m * 2 ^ 13) := by
  have m1 : (2:ℝ) ^ 52 + 1 ≤ m := by exact_mod_cast h1
  have m2 : (m:ℝ) ≤ 2 ^ 53 - 2 := by exact_mod_cast h2
  have hr : rnd (m * 2 ^ 13 + c) = m * 2 ^ 13 := by
    have := rnd_eq (x := m * 2 ^ 13 + c) m 13 (by norm_num) (by norm_num; linarith) (by norm_num; linarith) (by
      rw [show ((m:ℝ) * 2 ^ 13 + c) / 2 ^ (13:ℤ) - m = c / 2 ^ 13 by norm_num; ring, abs_of_nonneg (by positivity)]
      rw [div_lt_iff₀ (by norm_num)]; linarith)
    rw [this]; norm_num
  have hp : (0:ℝ) < m * 2 ^ 13 := by
    apply mul_pos _ (by norm_num); linarith
  have := add_ext (Is.fin (m * 2 ^ 13)) hC
  rw [round_val hr (near66 (by rw [abs_of_pos hp]; linarith)) hp.ne'] at this
  exact ((Is.fin _).of_ext this.symm).eq_fin hp.ne'

/-- the half of `ln 2π` -/
theorem half_ln_two_pi : ∃ c, (F64.fin (1 / 2) * (2 * F64.lit Real.pi).ln : F64).Is c ∧ 0 ≤ c ∧ c ≤ 4 := by
  have h1 : Btw 6 8 (2 * F64.lit Real.pi) := (Btw.num (Is.num 2)).mul pi_btw (keep 6 0) (keep 8 0) fun r s a b c d => by
    have : r = 2 := le_antisymm b a
    subst r; constructor <;> linarith
  obtain ⟨x, hx, hx0, hx1, hx2⟩ := h1.pos (by norm_num)
  have h2 : Btw 0 7 (2 * F64.lit Real.pi).ln := by
    rw [hx]
    unfold F64.ln F64.logWith
    dsimp only
    rw [if_neg hx0.ne', if_neg (not_lt.2 hx0.le)]
    exact round_btw (keep 0 0) (keep 7 0) (Real.log_nonneg (by linarith)) (by have := Real.log_le_sub_one_of_pos hx0; exact this.trans (by linarith))
  exact (Btw.num (Is.fin (1 / 2))).mul h2 (keep 0 0) (keep 4 0) fun r s a b c d => by
    have : r = 1 / 2 := le_antisymm b a
    subst r; constructor <;> linarith

/-- the logarithm of the mass when the rate and the outcome are near 2^60 -/
theorem pois_eval {pr : Profile} {k : ℕ} {X Y L : ℝ} {a b1 b2 : ℤ} (hk : k < 2 ^ 63) (hk' : 255 ≤ k) (e1 : F64.ofNat k = fin Y) (e2 : F64.ofNat (k + 1) = fin Y)
    (l1 : (F64.fin X).ln = fin L) (l2 : (F64.fin Y).ln = fin L) (hY : rnd (Y - 1 / 2) = Y) (hY1 : 2 ^ 60 ≤ Y) (hY2 : Y ≤ 2 ^ 61)
    (hA : rnd (Y * L) = a * 2 ^ 13) (ha : (2:ℤ) ^ 52 + 1 ≤ a ∧ a ≤ 2 ^ 53 - 2)
    (hB1 : rnd (a * 2 ^ 13 - X) = b1 * 2 ^ 13) (hb1 : (2:ℤ) ^ 52 + 1 ≤ b1 ∧ b1 ≤ 2 ^ 53 - 2)
    (hB2 : rnd (a * 2 ^ 13 - Y) = b2 * 2 ^ 13) (hb2 : (2:ℤ) ^ 52 + 1 ≤ b2 ∧ b2 ≤ 2 ^ 53 - 2) :
    (Poisson.mk (fin X)).logPmf pr k = .ok (fin (b1 * 2 ^ 13) - fin (b2 * 2 ^ 13)) := by
  have sz : ∀ {m : ℤ}, (2:ℤ) ^ 52 + 1 ≤ m ∧ m ≤ 2 ^ 53 - 2 → |(m:ℝ) * 2 ^ 13| < 2 ^ 1024 ∧ (m:ℝ) * 2 ^ 13 ≠ 0 := by
    rintro m ⟨h1, h2⟩
    have m1 : (2:ℝ) ^ 52 + 1 ≤ m := by exact_mod_cast h1
    have m2 : (m:ℝ) ≤ 2 ^ 53 - 2 := by exact_mod_cast h2
    have hp : (0:ℝ) < m * 2 ^ 13 := by
      apply mul_pos _ (by norm_num); linarith
    exact ⟨near66 (by rw [abs_of_pos hp]; linarith), hp.ne'⟩
  have v1 : fin Y * fin L = fin (a * 2 ^ 13) := mul_val hA (sz ha).1 (sz ha).2
  have v2 : fin (a * 2 ^ 13) - fin X = fin (b1 * 2 ^ 13) := sub_val (Is.fin X) hB1 (sz hb1).1 (sz hb1).2
  have v3 : fin (a * 2 ^ 13) - fin Y = fin (b2 * 2 ^ 13) := sub_val (Is.fin Y) hB2 (sz hb2).1 (sz hb2).2
  have hY0 : 0 < Y := lt_of_lt_of_le (by norm_num) hY1
  have v4 : fin Y - fin (1 / 2) = fin Y := sub_val (Is.fin _) hY (near66 (by rw [abs_of_pos hY0]; linarith)) hY0.ne'
  obtain ⟨c, c1, c2, c3⟩ := half_ln_two_pi
  obtain ⟨e, f1, f2, f3⟩ : ∃ e, (1 / (12 * fin Y) : F64).Is e ∧ 0 ≤ e ∧ e ≤ 4 := by
    have kk : Keep ((2:ℝ) ^ 60) := ⟨rnd_two_pow (e := 60) (by norm_num), FP.Lawful.not_huge _ (by
      rw [abs_of_pos (by positivity)]; exact pow_le_pow_right₀ (by norm_num) (by norm_num))⟩
    have kk' : Keep ((2:ℝ) ^ 66) := ⟨rnd_two_pow (e := 66) (by norm_num), FP.Lawful.not_huge _ (by
      rw [abs_of_pos (by positivity)]; exact pow_le_pow_right₀ (by norm_num) (by norm_num))⟩
    have h1 : Btw (2 ^ 60) (2 ^ 66) (12 * fin Y) := (Btw.num (Is.num 12)).mul (Btw.num (Is.fin Y)) kk kk' fun r s a b c d => by
      have : r = 12 := le_antisymm b a
      have : s = Y := le_antisymm d c
      subst r s; constructor <;> linarith
    exact (Btw.num Is.one).div h1 (by norm_num) (keep 0 0) (keep 4 0) fun r s a b c d => by
      have : r = 1 := le_antisymm b a
      subst r
      have hs : (1:ℝ) ≤ s := le_trans (by norm_num) c
      exact ⟨by positivity, by rw [div_le_iff₀ (by linarith)]; linarith⟩
  unfold Poisson.logPmf logFactorialStirling
  rw [if_pos (by omega)]
  have hu : uadd pr k 1 = .ok (k + 1) := uadd_ok (by unfold U64; omega)
  rw [hu]
  simp only [exc_ok_bind, e1, e2, l1, l2]
  rw [v4, v1, v2, v3, absorb c1 hb2.1 hb2.2 c2 c3, absorb f1 hb2.1 hb2.2 f2 f3]

/-- integers near 2^60 + 256 j convert to it -/
theorem ofNat_near {k j : ℕ} (hj : j ≤ 1000) (h1 : 2 ^ 60 + 256 * j ≤ k + 100) (h2 : k ≤ 2 ^ 60 + 256 * j + 101) (h3 : 2 ^ 60 ≤ k) :
    F64.ofNat k = fin (2 ^ 60 + 256 * j) := by
  have k1 : (2:ℝ) ^ 60 + 256 * j ≤ k + 100 := by exact_mod_cast h1
  have k2 : (k:ℝ) ≤ 2 ^ 60 + 256 * j + 101 := by exact_mod_cast h2
  have k3 : (2:ℝ) ^ 60 ≤ k := by exact_mod_cast h3
  have j1 : (j:ℝ) ≤ 1000 := by exact_mod_cast hj
  have j0 : (0:ℝ) ≤ j := Nat.cast_nonneg j
  have hr : rnd (k:ℝ) = 2 ^ 60 + 256 * j := by
    have := rnd_eq (x := (k:ℝ)) (2 ^ 52 + j) 8 (by norm_num) (by norm_num; linarith) (by norm_num; linarith) (by
      push_cast
      rw [abs_lt]; norm_num
      constructor <;> linarith)
    rw [this]; push_cast; norm_num; ring
  exact round_val hr (near66 (by rw [abs_of_nonneg (by positivity)]; linarith)) (by positivity)

/-- C249 is violated by the Poisson law: with the rate 2^60 + 3840 each of the 200 outcomes 2^60 + 4252 ≤ k < 2^60 + 4452 has the mass +∞. -/
theorem C249_poisson_violated (pr : Profile) {k : ℕ} (hk1 : 2 ^ 60 + 4252 ≤ k) (hk2 : k < 2 ^ 60 + 4452) :
    ∃ d P, Poisson.new (fin (2 ^ 60 + 3840)) = .ok d ∧ d.pmf pr k = .ok P ∧ P.unwrap = pinf ∧ ¬ InUnit P.unwrap := by
  have e1 : F64.ofNat k = fin (2 ^ 60 + 4352) := by
    rw [ofNat_near (j := 17) (by norm_num) (by omega) (by omega) (by omega)]; norm_num
  have e2 : F64.ofNat (k + 1) = fin (2 ^ 60 + 4352) := by
    rw [ofNat_near (j := 17) (by norm_num) (by omega) (by omega) (by omega)]; norm_num
  have l1 := ln_near (c := 3840) (by norm_num) 5853107595155025 (by norm_num) (by norm_num) (by norm_num) (by norm_num)
  have l2 := ln_near (c := 4352) (by norm_num) 5853107595155025 (by norm_num) (by norm_num) (by norm_num) (by norm_num)
  have hl := pois_eval (pr := pr) (k := k) (a := 5853107595155047) (b1 := 5712370106799719) (b2 := 5712370106799718) (by omega) (by omega) e1 e2 l1 l2
    (by
      have := rnd_eq (x := 2 ^ 60 + 4352 - 1 / 2) (2 ^ 52 + 17) 8 (by norm_num) (by norm_num) (by norm_num) (by norm_num [abs_lt])
      rw [this]; norm_num) (by norm_num) (by norm_num)
    (by
      rw [rnd_eq (5853107595155047) 13 (by norm_num) (by norm_num) (by norm_num) (by norm_num [abs_lt])]; norm_num) (by norm_num)
    (by
      rw [rnd_eq (5712370106799719) 13 (by norm_num) (by norm_num) (by norm_num) (by norm_num [abs_lt])]; norm_num) (by norm_num)
    (by
      rw [rnd_eq (5712370106799718) 13 (by norm_num) (by norm_num) (by norm_num) (by norm_num [abs_lt])]; norm_num) (by norm_num)
  have hz : (fin ((5712370106799719:ℤ) * 2 ^ 13) - fin ((5712370106799718:ℤ) * 2 ^ 13) : F64) = fin (2 ^ 13) := by
    refine sub_val (Is.fin _) ?_ (near66 (by norm_num)) (by norm_num)
    have := rnd_two_pow (e := 13) (by norm_num)
    rw [show ((5712370106799719:ℤ):ℝ) * 2 ^ 13 - ((5712370106799718:ℤ):ℝ) * 2 ^ 13 = 2 ^ (13:ℤ) by norm_num, this]; norm_num
  rw [hz] at hl
  have hx : (fin (2 ^ 13) : F64).exp = pinf := by
    refine round_pinf (y := Real.exp (2 ^ 13)) ?_
    have h2 : (2:ℝ) ≤ Real.exp 1 := by linarith [Real.add_one_le_exp 1]
    calc (2:ℝ) ^ 1024 ≤ Real.exp 1 ^ 1024 := pow_le_pow_left₀ (by norm_num) h2 _
      _ = Real.exp 1024 := by rw [← Real.exp_nat_mul]; norm_num
      _ ≤ Real.exp (2 ^ 13) := Real.exp_le_exp.2 (by norm_num)
  refine ⟨_, ⟨pinf⟩, Poisson.new_ok.2 ⟨lt_of_pos (by norm_num) (Is.fin _), rfl⟩, ?_, rfl, not_unit_inf (Or.inl rfl)⟩
  unfold Poisson.pmf
  rw [hl, exc_ok_bind, hx]; rfl

/-- C250 is violated by the Poisson law: with the rate 2^60 each of the outcomes 2^60 ≤ k ≤ 2^60 + 100 has the mass 1 (the Poisson law gives
them at most 1/2, and at most 1 together). -/
theorem C250_poisson_violated (pr : Profile) {k : ℕ} (hk1 : 2 ^ 60 ≤ k) (hk2 : k ≤ 2 ^ 60 + 100) :
    ∃ d P, Poisson.new (fin (2 ^ 60)) = .ok d ∧ d.pmf pr k = .ok P ∧ P.unwrap = fin 1 ∧ poisPMF (2 ^ 60) k ≤ 1 / 2 := by
  have e1 : F64.ofNat k = fin (2 ^ 60) := by
    rw [ofNat_near (j := 0) (by norm_num) (by omega) (by omega) (by omega)]; norm_num
  have e2 : F64.ofNat (k + 1) = fin (2 ^ 60) := by
    rw [ofNat_near (j := 0) (by norm_num) (by omega) (by omega) (by omega)]; norm_num
  have l1 := ln_near (c := 0) (by norm_num) 5853107595155024 (by norm_num) (by norm_num) (by norm_num) (by norm_num)
  rw [add_zero] at l1
  have hl := pois_eval (pr := pr) (k := k) (a := 5853107595155024) (b1 := 5712370106799696) (b2 := 5712370106799696) (by omega) (by omega) e1 e2 l1 l1
    (by
      have := rnd_eq (x := 2 ^ 60 - 1 / 2) (2 ^ 53) 7 (by norm_num) (by norm_num) (by norm_num) (by norm_num [abs_lt])
      rw [this]; norm_num) (by norm_num) (by norm_num)
    (by
      rw [rnd_eq (5853107595155024) 13 (by norm_num) (by norm_num) (by norm_num) (by norm_num [abs_lt])]; norm_num) (by norm_num)
    (by
      rw [rnd_eq (5712370106799696) 13 (by norm_num) (by norm_num) (by norm_num) (by norm_num [abs_lt])]; norm_num) (by norm_num)
    (by
      rw [rnd_eq (5712370106799696) 13 (by norm_num) (by norm_num) (by norm_num) (by norm_num [abs_lt])]; norm_num) (by norm_num)
  have hz : (fin ((5712370106799696:ℤ) * 2 ^ 13) - fin ((5712370106799696:ℤ) * 2 ^ 13) : F64).Is 0 := by
    have := sub_is (Is.fin ((5712370106799696:ℤ) * 2 ^ 13 : ℝ)) (Is.fin ((5712370106799696:ℤ) * 2 ^ 13 : ℝ)) (by rw [sub_self, F64.rnd_zero]; exact FP.Lawful.not_huge _ (by rw [abs_zero]; positivity))
    rwa [sub_self, F64.rnd_zero] at this
  refine ⟨_, ⟨fin 1⟩, Poisson.new_ok.2 ⟨lt_of_pos (by norm_num) (Is.fin _), rfl⟩, ?_, rfl, pois_le_half (by positivity) (by omega)⟩
  unfold Poisson.pmf
  rw [hl, exc_ok_bind]
  generalize (fin ((5712370106799696:ℤ) * 2 ^ 13) - fin ((5712370106799696:ℤ) * 2 ^ 13) : F64) = z at hz
  rw [exp_zero hz]; rfl
end
end Rstat
