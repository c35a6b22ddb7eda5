import Verif.Float.Core
import Mathlib.Tactic.Positivity
import Mathlib.Tactic.NormNum
import Mathlib.Tactic.Linarith
import Mathlib.Tactic.FieldSimp

/-! Helper lemmas on `F64`. -/
set_option linter.unusedSectionVars false
namespace Rstat
open F64

namespace F64

@[simp] theorem toReal_fin (r : ℝ) : (fin r).toReal = r := rfl
@[simp] theorem toReal_negZero : negZero.toReal = 0 := rfl
@[simp] theorem toReal_pinf : pinf.toReal = 0 := rfl
@[simp] theorem toReal_ninf : ninf.toReal = 0 := rfl
@[simp] theorem toReal_nan : nan.toReal = 0 := rfl

@[simp] theorem ext_fin (r : ℝ) : (fin r).ext = some (r : EReal) := rfl
@[simp] theorem ext_negZero : negZero.ext = some 0 := rfl
@[simp] theorem ext_pinf : pinf.ext = some ⊤ := rfl
@[simp] theorem ext_ninf : ninf.ext = some ⊥ := rfl
@[simp] theorem ext_nan : nan.ext = none := rfl

@[simp] theorem isFinite_fin (r : ℝ) : (fin r).isFinite := trivial
@[simp] theorem isFinite_negZero : negZero.isFinite := trivial
@[simp] theorem not_isFinite_pinf : ¬ pinf.isFinite := fun h => h
@[simp] theorem not_isFinite_ninf : ¬ ninf.isFinite := fun h => h
@[simp] theorem not_isFinite_nan : ¬ nan.isFinite := fun h => h
@[simp] theorem not_isInf_fin (r : ℝ) : ¬ (fin r).isInf := fun h => h
@[simp] theorem not_isInf_negZero : ¬ negZero.isInf := fun h => h
@[simp] theorem isInf_pinf : pinf.isInf := trivial
@[simp] theorem isInf_ninf : ninf.isInf := trivial
@[simp] theorem isNeg_fin (r : ℝ) : (fin r).isNeg ↔ r < 0 := Iff.rfl
@[simp] theorem isNeg_negZero : negZero.isNeg ↔ True := Iff.rfl
@[simp] theorem isNeg_pinf : pinf.isNeg ↔ False := Iff.rfl
@[simp] theorem isNeg_ninf : ninf.isNeg ↔ True := Iff.rfl

theorem lt_def (a b : F64) : a < b ↔ ∃ x y, a.ext = some x ∧ b.ext = some y ∧ x < y := Iff.rfl
theorem le_def (a b : F64) : a ≤ b ↔ ∃ x y, a.ext = some x ∧ b.ext = some y ∧ x ≤ y := Iff.rfl

/-! ### the `Is` relation -/

theorem Is.fin (r : ℝ) : (F64.fin r).Is r := Or.inl rfl
theorem Is.negZero : F64.negZero.Is 0 := Or.inr ⟨rfl, rfl⟩
theorem Is.zero : (0 : F64).Is 0 := Or.inl rfl
theorem Is.one : (1 : F64).Is 1 := Or.inl rfl
theorem Is.num (n : ℕ) [n.AtLeastTwo] : (OfNat.ofNat n : F64).Is (OfNat.ofNat n) := Or.inl rfl

theorem Is.toReal_eq {a : F64} {r : ℝ} (h : a.Is r) : a.toReal = r := by
  rcases h with rfl | ⟨rfl, rfl⟩ <;> rfl

theorem Is.isFinite {a : F64} {r : ℝ} (h : a.Is r) : a.isFinite := by
  rcases h with rfl | ⟨rfl, rfl⟩ <;> trivial

theorem Is.not_isInf {a : F64} {r : ℝ} (h : a.Is r) : ¬ a.isInf := by
  rcases h with rfl | ⟨rfl, rfl⟩ <;> simp

theorem Is.ne_nan {a : F64} {r : ℝ} (h : a.Is r) : a ≠ nan := by
  rcases h with rfl | ⟨rfl, rfl⟩ <;> simp

theorem Is.ext_eq {a : F64} {r : ℝ} (h : a.Is r) : a.ext = some (r : EReal) := by
  rcases h with rfl | ⟨rfl, rfl⟩ <;> simp

theorem Is.eq {a : F64} {r s : ℝ} (h : a.Is r) (h' : a.Is s) : r = s := by
  rw [← h.toReal_eq, h'.toReal_eq]

theorem Is.congr {a : F64} {r s : ℝ} (h : a.Is r) (e : r = s) : a.Is s := e ▸ h

theorem isFinite_iff_Is (a : F64) : a.isFinite ↔ a.Is a.toReal := by
  cases a <;> simp [Is]

theorem isFinite.is {a : F64} (h : a.isFinite) : a.Is a.toReal := (isFinite_iff_Is a).1 h

theorem Is.eq_fin {a : F64} {r : ℝ} (h : a.Is r) (hr : r ≠ 0) : a = F64.fin r := by
  rcases h with h | ⟨_, h⟩
  · exact h
  · exact absurd h hr

theorem Is.lt_iff {a b : F64} {r s : ℝ} (ha : a.Is r) (hb : b.Is s) : a < b ↔ r < s := by
  rw [lt_def, ha.ext_eq, hb.ext_eq]; simp
theorem Is.le_iff {a b : F64} {r s : ℝ} (ha : a.Is r) (hb : b.Is s) : a ≤ b ↔ r ≤ s := by
  rw [le_def, ha.ext_eq, hb.ext_eq]; simp
theorem Is.feq_iff {a b : F64} {r s : ℝ} (ha : a.Is r) (hb : b.Is s) : a.feq b ↔ r = s := by
  unfold feq; rw [ha.ext_eq, hb.ext_eq]; simp [eq_comm]

theorem fin_lt_fin {r s : ℝ} : F64.fin r < F64.fin s ↔ r < s := (Is.fin r).lt_iff (Is.fin s)
theorem fin_le_fin {r s : ℝ} : F64.fin r ≤ F64.fin s ↔ r ≤ s := (Is.fin r).le_iff (Is.fin s)

@[simp] theorem not_nan_lt (a : F64) : ¬ nan < a := by simp [lt_def]
@[simp] theorem not_lt_nan (a : F64) : ¬ a < nan := by simp [lt_def]
@[simp] theorem not_nan_le (a : F64) : ¬ nan ≤ a := by simp [le_def]
@[simp] theorem not_le_nan (a : F64) : ¬ a ≤ nan := by simp [le_def]

/-- anything between two finite bounds is finite -/
theorem is_of_le_le {a l u : F64} {r s : ℝ} (hl : l.Is r) (hu : u.Is s) (h1 : l ≤ a) (h2 : a ≤ u) :
    a.Is a.toReal ∧ r ≤ a.toReal ∧ a.toReal ≤ s := by
  have ha : a.isFinite := by
    cases a with
    | nan => simp at h1
    | pinf => rw [le_def, hu.ext_eq] at h2; simp at h2
    | ninf => rw [le_def, hl.ext_eq] at h1; simp at h1
    | negZero => trivial
    | fin r => trivial
  refine ⟨ha.is, ?_, ?_⟩
  · exact (hl.le_iff ha.is).1 h1
  · exact (ha.is.le_iff hu).1 h2

/-! ### exact-sign negation -/
theorem Is.neg {a : F64} {r : ℝ} (h : a.Is r) : (-a).Is (-r) := by
  show (F64.neg a).Is (-r)
  rcases h with rfl | ⟨rfl, rfl⟩
  · unfold F64.neg; dsimp only
    split_ifs with h0
    · exact Or.inr ⟨rfl, by simp [h0]⟩
    · exact Or.inl rfl
  · exact Or.inl (by simp [F64.neg])

theorem Is.abs [FP] {a : F64} {r : ℝ} (h : a.Is r) : (F64.abs a).Is |r| := by
  rcases h with rfl | ⟨rfl, rfl⟩
  · exact Or.inl rfl
  · exact Or.inl (by simp [F64.abs])

/-! ### general rounding facts -/
section lawful
variable [FP]

theorem add_eq_round {a b : F64} {r s : ℝ} (ha : a.Is r) (hb : b.Is s) :
    (a + b = F64.round (r + s)) ∨ (a = F64.negZero ∧ b = F64.negZero ∧ a + b = F64.negZero) := by
  rcases ha with rfl | ⟨rfl, rfl⟩ <;> rcases hb with rfl | ⟨rfl, rfl⟩
  · left; rfl
  · left; rfl
  · left; rfl
  · right; exact ⟨rfl, rfl, rfl⟩

theorem mul_finite {a b : F64} {r s : ℝ} (ha : a.Is r) (hb : b.Is s) :
    a * b = if r * s = 0 then F64.szero (¬ (a.isNeg ↔ b.isNeg)) else F64.round (r * s) := by
  show F64.mul a b = _
  rcases ha with rfl | ⟨rfl, rfl⟩ <;> rcases hb with rfl | ⟨rfl, rfl⟩ <;>
    simp [F64.mul]

theorem div_finite {a b : F64} {r s : ℝ} (ha : a.Is r) (hb : b.Is s) (hs : s ≠ 0) :
    a / b = if r = 0 then F64.szero (¬ (a.isNeg ↔ b.isNeg)) else F64.round (r / s) := by
  show F64.div a b = _
  rcases ha with rfl | ⟨rfl, rfl⟩ <;> rcases hb with rfl | ⟨rfl, rfl⟩ <;>
    simp_all [F64.div]

theorem szero_is (p : Prop) : (szero p).Is 0 := by
  unfold szero; split_ifs
  · exact Is.negZero
  · exact Is.fin 0

/-- in a lawful arithmetic, moderate results do not overflow -/
theorem rnd_zero [FP.Lawful] : FP.rnd 0 = 0 := by
  simpa using FP.Lawful.rnd_dyadic 0 0 (by norm_num) (by norm_num)
theorem rnd_one [FP.Lawful] : FP.rnd 1 = 1 := by
  simpa using FP.Lawful.rnd_dyadic 1 0 (by norm_num) (by norm_num)
theorem rnd_natCast [FP.Lawful] (n : ℕ) (hn : n ≤ 2 ^ 53) : FP.rnd n = n := by
  have := FP.Lawful.rnd_dyadic n 0 (by simpa using (by exact_mod_cast hn : (n:ℤ) ≤ 2 ^ 53)) (by norm_num)
  simpa using this
theorem rnd_nonneg [FP.Lawful] {r : ℝ} (h : 0 ≤ r) : 0 ≤ FP.rnd r := by
  have := FP.Lawful.rnd_mono h; rwa [rnd_zero] at this
theorem rnd_le_one [FP.Lawful] {r : ℝ} (h : r ≤ 1) : FP.rnd r ≤ 1 := by
  have := FP.Lawful.rnd_mono h; rwa [rnd_one] at this

theorem round_is {r : ℝ} (h : ¬ FP.huge (FP.rnd r)) : (F64.round r).Is (FP.rnd r) := by
  unfold F64.round
  rw [if_neg h]
  split_ifs with h0
  · exact Or.inr ⟨rfl, h0.1⟩
  · exact Is.fin _

theorem not_huge_of_le [FP.Lawful] {r : ℝ} (n : ℕ) (hn : n ≤ 2 ^ 53) (h : |r| ≤ n) :
    ¬ FP.huge (FP.rnd r) := by
  apply FP.Lawful.not_huge
  have h1 : FP.rnd r ≤ n := by
    have := FP.Lawful.rnd_mono (le_of_abs_le h); rwa [rnd_natCast n hn] at this
  have h2 : -(n:ℝ) ≤ FP.rnd r := by
    have := FP.Lawful.rnd_mono (neg_le_of_abs_le h)
    rwa [FP.Lawful.rnd_neg, rnd_natCast n hn] at this
  have h3 : (n:ℝ) ≤ 2 ^ 53 := by exact_mod_cast hn
  have h4 : (2:ℝ) ^ 53 ≤ 2 ^ 1023 := pow_le_pow_right₀ (by norm_num) (by norm_num)
  exact (abs_le.2 ⟨h2, h1⟩).trans (h3.trans h4)

theorem round_is_of_le [FP.Lawful] {r : ℝ} (n : ℕ) (hn : n ≤ 2 ^ 53) (h : |r| ≤ n) :
    (F64.round r).Is (FP.rnd r) := round_is (not_huge_of_le n hn h)

theorem add_is [FP.Lawful] {a b : F64} {r s : ℝ} (ha : a.Is r) (hb : b.Is s)
    (h : ¬ FP.huge (FP.rnd (r + s))) : (a + b).Is (FP.rnd (r + s)) := by
  rcases add_eq_round ha hb with h' | ⟨h1, h2, h'⟩
  · rw [h']; exact round_is h
  · rw [h']; subst h1 h2
    have e1 := ha.toReal_eq; have e2 := hb.toReal_eq
    simp only [toReal_negZero] at e1 e2
    rw [← e1, ← e2, add_zero, rnd_zero]; exact Is.negZero

theorem sub_is [FP.Lawful] {a b : F64} {r s : ℝ} (ha : a.Is r) (hb : b.Is s)
    (h : ¬ FP.huge (FP.rnd (r - s))) : (a - b).Is (FP.rnd (r - s)) :=
  (add_is ha hb.neg h : (a + -b).Is (FP.rnd (r + -s)))

theorem mul_is [FP.Lawful] {a b : F64} {r s : ℝ} (ha : a.Is r) (hb : b.Is s)
    (h : ¬ FP.huge (FP.rnd (r * s))) : (a * b).Is (FP.rnd (r * s)) := by
  rw [mul_finite ha hb]
  split_ifs with h0
  · rw [h0, rnd_zero]; exact szero_is _
  · exact round_is h

theorem div_is [FP.Lawful] {a b : F64} {r s : ℝ} (ha : a.Is r) (hb : b.Is s) (hs : s ≠ 0)
    (h : ¬ FP.huge (FP.rnd (r / s))) : (a / b).Is (FP.rnd (r / s)) := by
  rw [div_finite ha hb hs]
  split_ifs with h0
  · rw [h0, zero_div, rnd_zero]; exact szero_is _
  · exact round_is h

end lawful

/-! ### exact arithmetic -/
section exact
variable [FP] [FP.Exact]

theorem round_exact (r : ℝ) : F64.round r = F64.fin r := by
  have hn : ¬ FP.huge r := FP.Exact.no_huge r
  unfold F64.round
  rw [FP.Exact.rnd_id, if_neg hn, if_neg]
  rintro ⟨h1, h2⟩; exact absurd h1 h2.ne

theorem Is.round (r : ℝ) : (F64.round r).Is r := by rw [round_exact]; exact Is.fin r
theorem Is.lit (r : ℝ) : (F64.lit r).Is r := Is.round r
theorem Is.ofNat (n : ℕ) : (F64.ofNat n).Is (n : ℝ) := Is.round _
theorem Is.ofInt (n : ℤ) : (F64.ofInt n).Is (n : ℝ) := Is.round _

theorem Is.add {a b : F64} {r s : ℝ} (ha : a.Is r) (hb : b.Is s) : (a + b).Is (r + s) := by
  rcases add_eq_round ha hb with h | ⟨h1, h2, h⟩
  · rw [h]; exact Is.round _
  · rw [h]
    have := ha.toReal_eq; have := hb.toReal_eq
    subst h1 h2; simp_all [Is]

theorem Is.sub {a b : F64} {r s : ℝ} (ha : a.Is r) (hb : b.Is s) : (a - b).Is (r - s) := by
  exact (Is.add ha hb.neg : (a + -b).Is (r + -s))

theorem Is.mul {a b : F64} {r s : ℝ} (ha : a.Is r) (hb : b.Is s) : (a * b).Is (r * s) := by
  rw [mul_finite ha hb]
  split_ifs with h
  · rw [h]; exact szero_is _
  · exact Is.round _

theorem Is.div {a b : F64} {r s : ℝ} (ha : a.Is r) (hb : b.Is s) (hs : s ≠ 0) :
    (a / b).Is (r / s) := by
  rw [div_finite ha hb hs]
  split_ifs with h
  · rw [h, zero_div]; exact szero_is _
  · exact Is.round _

theorem Is.sqrt {a : F64} {r : ℝ} (ha : a.Is r) (hr : 0 ≤ r) : (F64.sqrt a).Is (Real.sqrt r) := by
  rcases ha with rfl | ⟨rfl, rfl⟩
  · unfold F64.sqrt; dsimp only; rw [if_neg (not_lt.2 hr)]; exact Is.round _
  · simp [F64.sqrt, Is]

theorem Is.exp {a : F64} {r : ℝ} (ha : a.Is r) : (F64.exp a).Is (Real.exp r) := by
  rcases ha with rfl | ⟨rfl, rfl⟩
  · unfold F64.exp; dsimp only; rw [FP.Exact.exp_eq]; exact Is.round _
  · unfold F64.exp; dsimp only; rw [FP.Exact.exp_eq]; exact Is.round _

theorem Is.ln {a : F64} {r : ℝ} (ha : a.Is r) (hr : 0 < r) : (F64.ln a).Is (Real.log r) := by
  rw [ha.eq_fin hr.ne']
  unfold F64.ln F64.logWith; dsimp only
  rw [if_neg hr.ne', if_neg (not_lt.2 hr.le), FP.Exact.ln_eq]; exact Is.round _

theorem Is.log2 {a : F64} {r : ℝ} (ha : a.Is r) (hr : 0 < r) : (F64.log2 a).Is (Real.logb 2 r) := by
  rw [ha.eq_fin hr.ne']
  unfold F64.log2 F64.logWith; dsimp only
  rw [if_neg hr.ne', if_neg (not_lt.2 hr.le), FP.Exact.log2_eq]; exact Is.round _

theorem trig_is {f g : ℝ → ℝ} (hfg : ∀ x, f x = g x) {a : F64} {r : ℝ} (ha : a.Is r) :
    (F64.trig f a).Is (g r) := by
  rcases ha with rfl | ⟨rfl, rfl⟩
  · unfold F64.trig; dsimp only; rw [hfg]; exact Is.round _
  · unfold F64.trig; dsimp only; rw [hfg]
    split_ifs with h
    · rw [h]; exact Is.negZero
    · exact Is.round _

theorem Is.sin {a : F64} {r : ℝ} (ha : a.Is r) : (F64.sin a).Is (Real.sin r) :=
  trig_is FP.Exact.sin_eq ha
theorem Is.cos {a : F64} {r : ℝ} (ha : a.Is r) : (F64.cos a).Is (Real.cos r) :=
  trig_is FP.Exact.cos_eq ha
theorem Is.tan {a : F64} {r : ℝ} (ha : a.Is r) : (F64.tan a).Is (Real.tan r) :=
  trig_is FP.Exact.tan_eq ha

theorem Is.atan {a : F64} {r : ℝ} (ha : a.Is r) : (F64.atan a).Is (Real.arctan r) := by
  rcases ha with rfl | ⟨rfl, rfl⟩
  · unfold F64.atan; dsimp only; rw [FP.Exact.atan_eq]; exact Is.round _
  · simp [F64.atan, Is]

theorem Is.asin {a : F64} {r : ℝ} (ha : a.Is r) (h1 : -1 ≤ r) (h2 : r ≤ 1) :
    (F64.asin a).Is (Real.arcsin r) := by
  rcases ha with rfl | ⟨rfl, rfl⟩
  · unfold F64.asin; dsimp only
    rw [FP.Exact.asin_eq, if_neg (by push Not; exact ⟨h1, h2⟩)]; exact Is.round _
  · simp [F64.asin, Is]

theorem Is.powf {a b : F64} {r s : ℝ} (ha : a.Is r) (hb : b.Is s) (hr : 0 < r) :
    (F64.powf a b).Is (r ^ s) := by
  have ha' := ha.eq_fin hr.ne'
  subst ha'
  unfold F64.powf
  rw [hb.toReal_eq]
  by_cases hs : s = 0
  · rw [if_pos ⟨hb.isFinite, hs⟩, hs, Real.rpow_zero]; exact Is.fin 1
  · rw [if_neg (fun h => hs h.2)]
    by_cases h1 : r = 1
    · rw [if_pos ⟨trivial, h1⟩, h1, Real.one_rpow]; exact Is.fin 1
    · rw [if_neg (fun h => h1 h.2)]
      have hb' := hb.eq_fin hs
      subst hb'
      simp only [toReal_fin, hr.ne', if_false, not_lt.2 hr.le, FP.Exact.pow_eq]
      exact Is.round _

/-- `0.powf(s)` for positive `s` -/
theorem Is.powf_zero {a b : F64} {s : ℝ} (ha : a.Is 0) (hb : b.Is s) (hs : 0 < s) :
    (F64.powf a b).Is 0 := by
  have hb' := hb.eq_fin hs.ne'
  subst hb'
  unfold F64.powf
  simp only [isFinite_fin, toReal_fin, hs.ne', ha.toReal_eq, and_false, if_false, zero_ne_one]
  rcases ha with rfl | ⟨rfl, -⟩
  · simp only [toReal_fin, if_true, hs]; exact szero_is _
  · simp only [toReal_negZero, toReal_fin, if_true, hs]; exact szero_is _

theorem Is.powf_nonneg {a b : F64} {r s : ℝ} (ha : a.Is r) (hb : b.Is s) (hr : 0 ≤ r) (hs : 0 < s) :
    (F64.powf a b).Is (r ^ s) := by
  rcases hr.eq_or_lt with h | h
  · subst h; rw [Real.zero_rpow hs.ne']; exact ha.powf_zero hb hs
  · exact ha.powf hb h

theorem powiLoop_is (n : ℕ) : ∀ {a r : F64} {x y : ℝ}, a.Is x → r.Is y →
    (F64.powiLoop a r n).Is (y * x ^ n) := by
  induction n using Nat.strong_induction_on with
  | _ n ih =>
    intro a r x y ha hr
    unfold F64.powiLoop
    have hstep : (if n % 2 = 1 then r * a else r).Is (if n % 2 = 1 then y * x else y) := by
      split_ifs
      · exact hr.mul ha
      · exact hr
    split_ifs with h0 h1 h1
    · have : n = 1 := by omega
      subst this; simpa using hr.mul ha
    · have : n = 0 := by omega
      subst this; simpa using hr
    · rw [if_pos h1] at hstep
      refine (ih (n / 2) (by omega) (ha.mul ha) hstep).congr ?_
      have hn : n = 2 * (n / 2) + 1 := by omega
      conv_rhs => rw [hn, pow_succ, pow_mul]
      rw [sq]; rw [if_pos h1]; ring
    · rw [if_neg h1] at hstep
      refine (ih (n / 2) (by omega) (ha.mul ha) hstep).congr ?_
      have hn : n = 2 * (n / 2) := by omega
      conv_rhs => rw [hn, pow_mul]
      rw [sq, if_neg h1]

theorem Is.powi {a : F64} {r : ℝ} (ha : a.Is r) (n : ℕ) : (F64.powi a (n : ℤ)).Is (r ^ n) := by
  unfold F64.powi
  rw [if_neg (by omega), Int.natAbs_natCast]
  simpa using powiLoop_is n ha (Is.fin 1)

theorem Is.powi_neg {a : F64} {r : ℝ} (ha : a.Is r) (hr : r ≠ 0) (n : ℕ) (hn : 0 < n) :
    (F64.powi a (-(n : ℤ))).Is ((r ^ n)⁻¹) := by
  unfold F64.powi
  rw [if_pos (by omega), Int.natAbs_neg, Int.natAbs_natCast]
  have := powiLoop_is n ha (Is.fin 1)
  rw [one_mul] at this
  rw [← one_div]
  exact (Is.fin 1).div this (pow_ne_zero _ hr)

theorem Is.powi2 {a : F64} {r : ℝ} (ha : a.Is r) : (F64.powi a 2).Is (r ^ 2) := ha.powi 2

theorem Is.floor {a : F64} {r : ℝ} (ha : a.Is r) : (F64.floor a).Is ⌊r⌋ := by
  rcases ha with rfl | ⟨rfl, rfl⟩
  · exact Is.fin _
  · simp [F64.floor, Is]

theorem Is.ceil {a : F64} {r : ℝ} (ha : a.Is r) : (F64.ceil a).Is ⌈r⌉ := by
  rcases ha with rfl | ⟨rfl, rfl⟩
  · unfold F64.ceil; dsimp only; split_ifs with h
    · rw [h.1]; simp [Is]
    · exact Is.fin _
  · simp [F64.ceil, Is]

theorem Is.erf {a : F64} {r : ℝ} (ha : a.Is r) : (F64.erf a).Is (Spec.erf r) := FP.Exact.erf_eq ha
theorem Is.erfc {a : F64} {r : ℝ} (ha : a.Is r) : (F64.erfc a).Is (1 - Spec.erf r) := FP.Exact.erfc_eq ha
theorem Is.norm {a : F64} {r : ℝ} (ha : a.Is r) : (F64.norm a).Is (Spec.Phi r) := FP.Exact.norm_eq ha
theorem Is.gamma {a : F64} {r : ℝ} (ha : a.Is r) (hr : 0 < r) : (F64.gamma a).Is (Real.Gamma r) :=
  FP.Exact.gamma_eq ha hr
theorem Is.loggamma {a : F64} {r : ℝ} (ha : a.Is r) (hr : 0 < r) :
    (F64.loggamma a).Is (Real.log (Real.Gamma r)) := FP.Exact.loggamma_eq ha hr
theorem Is.riemannZeta {a : F64} {r : ℝ} (ha : a.Is r) (hr : 1 < r) :
    (F64.riemannZeta a).Is (Spec.zeta r) := FP.Exact.zeta_eq ha hr
theorem Is.digamma {a : F64} {r : ℝ} (ha : a.Is r) (hr : 0 < r) :
    (F64.digamma a).Is (Spec.digamma r) := FP.Exact.digamma_eq ha hr
theorem Is.beta {a b : F64} {r s : ℝ} (ha : a.Is r) (hb : b.Is s) (hr : 0 < r) (hs : 0 < s) :
    (F64.beta a b).Is (Spec.Beta r s) := FP.Exact.beta_eq ha hb hr hs
theorem Is.logbeta {a b : F64} {r s : ℝ} (ha : a.Is r) (hb : b.Is s) (hr : 0 < r) (hs : 0 < s) :
    (F64.logbeta a b).Is (Real.log (Spec.Beta r s)) := FP.Exact.logbeta_eq ha hb hr hs
theorem Is.gammainc {a b : F64} {r s : ℝ} (ha : a.Is r) (hb : b.Is s) (hr : 0 < r) (hs : 0 ≤ s) :
    (F64.gammainc a b).Is (Spec.gammaP r s) := FP.Exact.gammainc_eq ha hb hr hs
theorem Is.betainc {x a b : F64} {t r s : ℝ} (hx : x.Is t) (ha : a.Is r) (hb : b.Is s)
    (h0 : 0 ≤ t) (h1 : t ≤ 1) (hr : 0 < r) (hs : 0 < s) :
    (F64.betainc x a b).Is (Spec.betaI t r s) := FP.Exact.betainc_eq hx ha hb h0 h1 hr hs
theorem Is.hyp2f1 {a b c x : F64} {p q r z : ℝ} (ha : a.Is p) (hb : b.Is q) (hc : c.Is r) (hx : x.Is z) (h0 : 0 < p) (h1 : p < r)
    (h2 : z < 1) : (F64.hyp2f1 a b c x).Is (Spec.hyp2f1 p q r z) := FP.Exact.hyp2f1_eq ha hb hc hx h0 h1 h2
theorem Is.normInv {a : F64} {z : ℝ} (ha : a.Is (Spec.Phi z)) : (F64.normInv a).Is z :=
  FP.Exact.normInv_eq ha

theorem foldl_add_is (l : List F64) (rs : List ℝ) (h : List.Forall₂ Is l rs) :
    ∀ {a : F64} {x : ℝ}, a.Is x → (l.foldl (· + ·) a).Is (x + rs.sum) := by
  induction h with
  | nil => intro a x ha; simpa using ha
  | cons h _ ih =>
    intro a x ha
    simp only [List.foldl_cons, List.sum_cons]
    exact (ih (ha.add h)).congr (by ring)

theorem Is.sum {l : List F64} {rs : List ℝ} (h : List.Forall₂ Is l rs) : (F64.sum l).Is rs.sum := by
  unfold F64.sum; simpa using foldl_add_is l rs h Is.zero

theorem foldl_mul_is (l : List F64) (rs : List ℝ) (h : List.Forall₂ Is l rs) :
    ∀ {a : F64} {x : ℝ}, a.Is x → (l.foldl (· * ·) a).Is (x * rs.prod) := by
  induction h with
  | nil => intro a x ha; simpa using ha
  | cons h _ ih =>
    intro a x ha
    simp only [List.foldl_cons, List.prod_cons]
    exact (ih (ha.mul h)).congr (by ring)

theorem Is.prod {l : List F64} {rs : List ℝ} (h : List.Forall₂ Is l rs) : (F64.prod l).Is rs.prod := by
  unfold F64.prod; simpa using foldl_mul_is l rs h Is.one

/-- mapping an elementwise-computable function -/
theorem forall₂_map {α : Type*} (l : List α) (f : α → F64) (g : α → ℝ) (h : ∀ a ∈ l, (f a).Is (g a)) :
    List.Forall₂ Is (l.map f) (l.map g) := by
  induction l with
  | nil => exact List.Forall₂.nil
  | cons a l ih =>
    exact List.Forall₂.cons (h a (by simp)) (ih fun b hb => h b (by simp [hb]))

theorem Is.sum_map {α : Type*} (l : List α) (f : α → F64) (g : α → ℝ) (h : ∀ a ∈ l, (f a).Is (g a)) :
    (F64.sum (l.map f)).Is (l.map g).sum := Is.sum (forall₂_map l f g h)

end exact

end F64

instance exactLawful [FP] [FP.Exact] : FP.Lawful where
  rnd_mono := by intro x y h; simpa [FP.Exact.rnd_id] using h
  rnd_neg := by simp [FP.Exact.rnd_id]
  rnd_idem := by simp [FP.Exact.rnd_id]
  rnd_dyadic := by simp [FP.Exact.rnd_id]
  rnd_err := by intro x; rw [FP.Exact.rnd_id, sub_self, abs_zero]; positivity
  not_huge := by intro x _; exact FP.Exact.no_huge x
  huge_neg := by intro x; simp [FP.Exact.no_huge]
  huge_mono := by intro x y _ h; exact absurd h (FP.Exact.no_huge x)

/-- evaluate an F64 expression structurally; leaves real side conditions -/
macro "feval_core" : tactic => `(tactic| repeat' (first
  | assumption
  | exact F64.Is.fin _
  | exact F64.Is.zero
  | exact F64.Is.one
  | exact F64.Is.num _
  | exact F64.Is.lit _
  | exact F64.Is.ofNat _
  | exact F64.Is.ofInt _
  | apply F64.Is.add
  | apply F64.Is.sub
  | apply F64.Is.mul
  | apply F64.Is.div
  | apply F64.Is.neg
  | apply F64.Is.exp
  | apply F64.Is.ln
  | apply F64.Is.log2
  | apply F64.Is.sqrt
  | apply F64.Is.powi2
  | apply F64.Is.sin
  | apply F64.Is.cos
  | apply F64.Is.tan
  | apply F64.Is.atan
  | apply F64.Is.asin
  | apply F64.Is.powf
  | apply F64.Is.erf
  | apply F64.Is.erfc
  | apply F64.Is.norm
  | apply F64.Is.gamma
  | apply F64.Is.loggamma
  | apply F64.Is.riemannZeta
  | apply F64.Is.digamma
  | apply F64.Is.beta
  | apply F64.Is.logbeta
  | apply F64.Is.abs
  | apply F64.Is.floor
  | apply F64.Is.ceil))

/-- `feval`: evaluate, then try to discharge side conditions -/
macro "feval" : tactic => `(tactic| (feval_core <;> try first | positivity | (norm_num; done) | (simp; done) | linarith))

end Rstat
