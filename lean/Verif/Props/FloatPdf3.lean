import Verif.Float.Positive
import Verif.Props.FloatPdf2
import Verif.Props.FloatSample
import Verif.Props.Dist.Triangular
import Verif.Props.Dist.Cosine
import Verif.Props.Dist.StudentT
import Verif.Props.Dist.Erlang
import Verif.Props.Dist.BetaPrime

/-! C259: the computed density is never negative, at any f64 of the support. -/
namespace Rstat
open F64 Spec Consts
set_option linter.unusedSectionVars false

section
variable [FP] [FP.Lawful] [FP.Libm]

/-! ### a calculus of sign bits -/
theorem zero_is_fin : (0 : F64) = fin 0 := rfl
theorem not_lt_of_sign {a : F64} (h : ¬ a.isNeg) : ¬ a < 0 := by
  rintro ⟨x, y, hx, hy, hxy⟩
  rw [zero_is_fin] at hy
  cases a <;> simp_all [F64.ext, F64.isNeg]
  · exact absurd hxy (not_lt.2 (by rw [← hy, ← hx]; exact le_top))
  · rw [← hy, ← hx, ← EReal.coe_zero, EReal.coe_lt_coe_iff] at hxy; linarith
theorem negZero_not_lt : ¬ (negZero : F64) < 0 := fun h => by
  have := (Is.negZero.lt_iff Is.zero).1 h; exact lt_irrefl _ this
theorem not_lt_of_sign' {a : F64} (h : ¬ a.isNeg ∨ a = negZero) : ¬ a < 0 := by
  rcases h with h | rfl
  · exact not_lt_of_sign h
  · exact negZero_not_lt
theorem sign_of_pos {a : F64} (h : 0 < a) : ¬ a.isNeg := by
  rcases pos_cases h with rfl | ⟨r, rfl, hr⟩
  · exact id
  · exact not_lt.2 hr.le
theorem sign_of_nonneg {a : F64} (h : 0 ≤ a) (hz : a ≠ negZero) : ¬ a.isNeg := by
  rcases nonneg_cases h with rfl | ⟨r, hr, h0⟩
  · exact id
  · rcases hr with rfl | ⟨rfl, _⟩
    · exact not_lt.2 h0
    · exact absurd rfl hz
theorem sign_round {r : ℝ} (h : 0 ≤ r) : ¬ (F64.round r).isNeg := by
  have h0 : 0 ≤ FP.rnd r := by have := FP.Lawful.rnd_mono h; rwa [rnd_zero] at this
  unfold F64.round
  split_ifs with h1 h2 h3
  · exact id
  · exact absurd h1 (by rw [le_antisymm (not_lt.1 h2) h, rnd_zero]; exact not_huge_zero)
  · exact absurd h3.2 (not_lt.2 h)
  · exact not_lt.2 h0
theorem sign_toReal {a : F64} (h : ¬ a.isNeg) : 0 ≤ a.toReal := by
  cases a <;> simp_all [F64.isNeg, F64.toReal]
theorem sign_mul {a b : F64} (ha : ¬ a.isNeg) (hb : ¬ b.isNeg) : ¬ (a * b).isNeg := by
  have h1 := sign_toReal ha
  have h2 := sign_toReal hb
  have hs : ¬ ¬ (a.isNeg ↔ b.isNeg) := by simp [ha, hb]
  show ¬ (F64.mul a b).isNeg
  unfold F64.mul
  split
  · exact id
  · exact id
  · split_ifs
    · exact id
    · rw [sinf, if_neg hs]; exact id
    · rw [szero, if_neg hs]; exact lt_irrefl _
    · exact sign_round (mul_nonneg h1 h2)
theorem sign_div {a b : F64} (ha : ¬ a.isNeg) (hb : ¬ b.isNeg) : ¬ (a / b).isNeg := by
  have h1 := sign_toReal ha
  have h2 := sign_toReal hb
  have hs : ¬ ¬ (a.isNeg ↔ b.isNeg) := by simp [ha, hb]
  show ¬ (F64.div a b).isNeg
  unfold F64.div
  split
  · exact id
  · exact id
  · split_ifs <;> first
      | exact id
      | (rw [sinf, if_neg hs]; exact id)
      | (rw [szero, if_neg hs]; exact lt_irrefl _)
      | exact sign_round (div_nonneg h1 h2)
theorem sign_add {a b : F64} (ha : ¬ a.isNeg) (hb : ¬ b.isNeg) : ¬ (a + b).isNeg := by
  have h1 := sign_toReal ha
  have h2 := sign_toReal hb
  have hr := sign_round (add_nonneg h1 h2)
  show ¬ (F64.add a b).isNeg
  cases a <;> cases b <;> first | exact hr | exact id | exact absurd trivial ha | exact absurd trivial hb
theorem sign_sqrt {a : F64} (ha : ¬ a.isNeg) : ¬ a.sqrt.isNeg := by
  cases a with
  | nan => exact id
  | pinf => exact id
  | ninf => exact absurd trivial ha
  | negZero => exact absurd trivial ha
  | fin r =>
    show ¬ (if r < 0 then nan else F64.round (Real.sqrt r)).isNeg
    rw [if_neg (show ¬ r < 0 from ha)]; exact sign_round (Real.sqrt_nonneg _)
theorem sign_exp (a : F64) : ¬ a.exp.isNeg := by
  cases a with
  | nan => exact id
  | pinf => exact id
  | ninf => exact lt_irrefl _
  | negZero => exact sign_round (FP.Libm.exp_nonneg _)
  | fin r => exact sign_round (FP.Libm.exp_nonneg _)
theorem sign_one : ¬ (1 : F64).isNeg := not_lt.2 zero_le_one
theorem sign_fin {r : ℝ} (h : 0 ≤ r) : ¬ (fin r).isNeg := not_lt.2 h
theorem sign_ofNat (n : ℕ) : ¬ (F64.ofNat n).isNeg := sign_round (Nat.cast_nonneg n)
theorem sign_lit {r : ℝ} (h : 0 ≤ r) : ¬ (F64.lit r).isNeg := sign_round h
theorem sign_powf {a b : F64} (ha : ¬ a.isNeg) : ¬ (a.powf b).isNeg := by
  have h1 := sign_toReal ha
  unfold F64.powf
  split_ifs with h0 h2
  · exact sign_one
  · exact sign_one
  · split
    · exact id
    · exact id
    · split_ifs
      · exact lt_irrefl _
      · exact sign_one
      · exact id
    · split_ifs
      · exact id
      · exact sign_one
      · exact lt_irrefl _
    · split_ifs
      · exact id
      · exact lt_irrefl _
    · exact absurd trivial ha
    · split_ifs
      · rw [szero, if_neg (by simp [ha])]; exact lt_irrefl _
      · rw [sinf, if_neg (by simp [ha])]; exact id
      · linarith
      · linarith
      · linarith
      · rename_i hz _
        exact sign_round (FP.Libm.pow_nonneg _ _ (lt_of_le_of_ne h1 (Ne.symm hz)))

/-- `-0` times / over a quantity with clear sign bit is NaN or a zero -/
theorem sign_mul' {a b : F64} (ha : ¬ a.isNeg ∨ a = negZero) (hb : ¬ b.isNeg) : ¬ (a * b).isNeg ∨ a * b = negZero := by
  rcases ha with ha | rfl
  · exact Or.inl (sign_mul ha hb)
  · show ¬ (F64.mul negZero b).isNeg ∨ F64.mul negZero b = negZero
    cases b with
    | nan => exact Or.inl id
    | pinf => left; simp [F64.mul, F64.isInf, F64.isFinite, F64.toReal, F64.isNeg]
    | ninf => exact absurd trivial hb
    | negZero => exact absurd trivial hb
    | fin r =>
      right
      have : ¬ r < 0 := hb
      simp [F64.mul, F64.isInf, F64.toReal, F64.isNeg, szero, this]
theorem sign_div' {a b : F64} (ha : ¬ a.isNeg ∨ a = negZero) (hb : ¬ b.isNeg) : ¬ (a / b).isNeg ∨ a / b = negZero := by
  rcases ha with ha | rfl
  · exact Or.inl (sign_div ha hb)
  · show ¬ (F64.div negZero b).isNeg ∨ F64.div negZero b = negZero
    cases b with
    | nan => exact Or.inl id
    | pinf => right; simp [F64.div, F64.isInf, F64.isNeg, szero]
    | ninf => exact absurd trivial hb
    | negZero => exact absurd trivial hb
    | fin r =>
      have : ¬ r < 0 := hb
      by_cases h : r = 0
      · left; simp [F64.div, F64.isInf, F64.toReal, F64.isNeg, h]
      · right; simp [F64.div, F64.isInf, F64.toReal, F64.isNeg, szero, this, h]
/-- `x - m` with `m ≤ x` has a clear sign bit, except for `-0 - (+0)` -/
theorem sign_sub {x m : F64} (h : m ≤ x) (hz : m = fin 0 → x ≠ negZero) : ¬ (x - m).isNeg := by
  obtain ⟨h1, h2, h3⟩ := le_cases.1 h
  show ¬ (F64.add x (F64.neg m)).isNeg
  rcases h3 with rfl | rfl | ⟨r, s, hr, hs, hrs⟩
  · cases x <;> first | exact id | exact absurd rfl h2
  · cases m with
    | nan => exact absurd rfl h1
    | fin r => simp only [F64.neg]; split_ifs <;> exact id
    | _ => exact id
  · rcases hr with rfl | ⟨rfl, rfl⟩
    · rcases hs with rfl | ⟨rfl, rfl⟩
      · simp only [F64.neg]
        split_ifs with e
        · exact sign_round (show 0 ≤ s + 0 by linarith)
        · exact sign_round (show 0 ≤ s + -r by linarith)
      · simp only [F64.neg]
        split_ifs with e
        · exact absurd rfl (hz (by rw [e]))
        · exact sign_round (show 0 ≤ 0 + -r by linarith)
    · rcases hs with rfl | ⟨rfl, rfl⟩
      · exact sign_round (show 0 ≤ s + 0 by linarith)
      · exact sign_round (show (0:ℝ) ≤ 0 + 0 by norm_num)
theorem sign_sub_lt {x m : F64} (h : m < x) : ¬ (x - m).isNeg := by
  refine sign_sub (le_of_lt' h) ?_
  rintro rfl rfl
  exact lt_irrefl _ ((Is.zero.lt_iff Is.negZero).1 h)
theorem sign_sub' {x m : F64} (h : m ≤ x) : ¬ (x - m).isNeg ∨ x - m = negZero := by
  by_cases hz : m = fin 0 ∧ x = negZero
  · obtain ⟨rfl, rfl⟩ := hz
    right; show F64.add negZero (F64.neg (fin 0)) = negZero; simp [F64.neg, F64.add]
  · exact Or.inl (sign_sub h fun h1 h2 => hz ⟨h1, h2⟩)
theorem sign_sq (z : F64) : ¬ (z * z).isNeg := by
  by_cases hz : z = nan
  · subst hz; exact id
  · show ¬ (F64.mul z z).isNeg
    unfold F64.mul
    split
    · exact id
    · exact id
    · split_ifs
      · exact id
      · rw [sinf, if_neg (by simp)]; exact id
      · rw [szero, if_neg (by simp)]; exact lt_irrefl _
      · exact sign_round (mul_self_nonneg _)
/-- powers of `-0` with an exponent above -1 are not negative -/
theorem sign_powf' {a b : F64} (ha : ¬ a.isNeg ∨ a = negZero) (hb : a = negZero → fin (-1) < b ∨ b = nan) :
    ¬ (a.powf b).isNeg ∨ a.powf b = negZero := by
  rcases ha with ha | rfl
  · exact Or.inl (sign_powf ha)
  · rcases hb rfl with h | rfl
    · cases b with
      | nan => exact absurd h (F64.not_lt_nan _)
      | ninf => exact absurd (lt_of_lt_of_le' h (bot_le' (b := fin (-1)) (by simp))) (fun h => lt_irrefl _ (fin_lt_fin.1 h))
      | pinf => left; simp [F64.powf, F64.isFinite, F64.toReal, F64.isNeg]
      | negZero => left; simp [F64.powf, F64.isFinite, F64.toReal, F64.isNeg]
      | fin s =>
        have hs : -1 < s := fin_lt_fin.1 h
        by_cases h0 : s = 0
        · left; simp [F64.powf, F64.isFinite, F64.toReal, F64.isNeg, h0]
        · by_cases hp : 0 < s
          · have : (negZero : F64).powf (fin s) = szero (isOdd s) := by
              simp [F64.powf, F64.isFinite, F64.toReal, F64.isNeg, h0, hp]
            rw [this, szero]
            split_ifs
            · exact Or.inr rfl
            · exact Or.inl (lt_irrefl _)
          · have ho : ¬ isOdd s := by
              rintro ⟨n, rfl, k, hk⟩
              have h3 : (-1:ℤ) < n := by exact_mod_cast hs
              have h4 : n ≤ 0 := by exact_mod_cast not_lt.1 hp
              omega
            left
            simp [F64.powf, F64.isFinite, F64.toReal, F64.isNeg, h0, hp, ho, sinf]
    · left; simp [F64.powf, F64.isFinite, F64.toReal, F64.isNeg]

/-! ### laws on the whole line -/

/-- C259: the computed Cauchy, Logistic and Gumbel densities are never negative, whatever the argument. -/
theorem C259_whole_line {a b : F64} :
    (∀ d, Cauchy.new a b = .ok d → ∀ x, ¬ d.pdf x < 0) ∧ (∀ d, Logistic.new a b = .ok d → ∀ x, ¬ d.pdf x < 0) ∧
    (∀ d, Gumbel.new a b = .ok d → ∀ x, ¬ d.pdf x < 0) := by
  refine ⟨fun d h x => ?_, fun d h x => ?_, fun d h x => ?_⟩
  · obtain ⟨h0, rfl⟩ := Cauchy.new_ok.1 h
    exact not_lt_of_sign (sign_div (sign_div (sign_div sign_one (sign_lit Real.pi_pos.le)) (sign_of_pos h0))
      (sign_add sign_one (sign_sq _)))
  · obtain ⟨h0, rfl⟩ := Logistic.new_ok.1 h
    have := sign_add sign_one (sign_exp (-((x - a) / b)))
    exact not_lt_of_sign (sign_div (sign_div (sign_div (sign_exp _) (sign_of_pos h0)) this) this)
  · obtain ⟨h0, rfl⟩ := Gumbel.new_ok.1 h
    exact not_lt_of_sign (sign_div (sign_exp _) (sign_of_pos h0))

/-- C259: the computed cosine density is never negative, whatever the argument. -/
theorem C259_cosine [FP.SignFns] {a b : F64} {d : Cosine} (h : Cosine.new a b = .ok d) (x : F64) : ¬ d.pdf x < 0 := by
  have key : ∀ u : F64, ¬ (u.cos + 1).isNeg := by
    intro u
    have hr : ∀ r : ℝ, -1 ≤ r → ¬ (F64.round r + 1).isNeg := by
      intro r h
      have h1 : -1 ≤ FP.rnd r := by
        have := FP.Lawful.rnd_mono h
        rwa [FP.Lawful.rnd_neg, rnd_one] at this
      have e : ∀ v : ℝ, 0 ≤ v + 1 → ¬ (fin v + 1).isNeg := fun v hv => by
        show ¬ (F64.round (v + 1)).isNeg
        exact sign_round hv
      unfold F64.round
      split_ifs with h2 h3 h4
      · exact id
      · exfalso
        refine FP.Lawful.not_huge (FP.rnd r) ?_ h2
        have h5 : FP.rnd r ≤ 0 := by have := FP.Lawful.rnd_mono (not_lt.1 h3); rwa [rnd_zero] at this
        rw [abs_of_nonpos h5]
        exact le_trans (by linarith) (one_le_pow₀ (by norm_num))
      · exact sign_round (show (0:ℝ) ≤ 0 + 1 by norm_num)
      · exact e _ (by linarith)
    cases u with
    | nan => exact id
    | pinf => exact id
    | ninf => exact id
    | negZero =>
      show ¬ ((if FP.fcos 0 = 0 then negZero else F64.round (FP.fcos 0)) + 1).isNeg
      split_ifs
      · exact sign_round (show (0:ℝ) ≤ 0 + 1 by norm_num)
      · exact hr _ (FP.SignFns.cos_ge _)
    | fin r => exact hr _ (FP.SignFns.cos_ge _)
  exact not_lt_of_sign (sign_mul (sign_fin (by norm_num)) (sign_div (key _) (sign_fin (by norm_num))))

/-! ### laws on the half line -/

/-- C259: Rayleigh, at every non-negative argument (`-0` and `+inf` included). -/
theorem C259_rayleigh {a : F64} {d : Rayleigh} (h : Rayleigh.new a = .ok d) (x : F64) (hx : 0 ≤ x) : ¬ d.pdf x < 0 := by
  obtain ⟨h0, rfl⟩ := Rayleigh.new_ok.1 h
  have hxs : ¬ x.isNeg ∨ x = negZero := by
    by_cases hz : x = negZero
    · exact Or.inr hz
    · exact Or.inl (sign_of_nonneg hx hz)
  exact not_lt_of_sign' (sign_mul' (sign_div' hxs (sign_mul (sign_of_pos h0) (sign_of_pos h0))) (sign_exp _))

theorem sign_or {x : F64} (hx : 0 ≤ x) : ¬ x.isNeg ∨ x = negZero := by
  by_cases hz : x = negZero
  · exact Or.inr hz
  · exact Or.inl (sign_of_nonneg hx hz)

/-- C259: Chi and ChiSq, at every non-negative argument (`-0` and `+inf` included). -/
theorem C259_chi_chi_sq [FP.SignFns] {k : ℕ} (hk : k < 2 ^ 64) :
    (∀ d, Chi.new k = .ok d → ∀ x, 0 ≤ x → ¬ d.pdf x < 0) ∧ (∀ d, ChiSq.new k = .ok d → ∀ x, 0 ≤ x → ¬ d.pdf x < 0) := by
  refine ⟨fun d h x hx => ?_, fun d h x hx => ?_⟩
  · obtain ⟨h0, rfl⟩ := Chi.new_ok.1 h
    obtain ⟨r, hr, r1⟩ := ofNat_pos hk h0
    refine not_lt_of_sign' (sign_div' (sign_mul' (sign_powf' (sign_or hx) fun _ => Or.inl ?_) (sign_exp _))
      (sign_mul (sign_powf (sign_fin (by norm_num))) (FP.SignFns.gamma_sign _ (sign_div (sign_ofNat k) (sign_fin (by norm_num))))))
    show fin (-1) < F64.ofNat k - 1
    rw [hr]
    exact lt_of_lt_of_le' (fin_lt_fin.2 (by norm_num : (-1:ℝ) < 0))
      (le_congr rfl (add_ext (Is.fin r) Is.one.neg).symm (round_nonneg (by linarith)))
  · obtain ⟨h0, rfl⟩ := ChiSq.new_ok.1 h
    obtain ⟨r, hr, r1⟩ := ofNat_pos hk h0
    refine not_lt_of_sign' (sign_div' (sign_mul' (sign_powf' (sign_or hx) fun _ => Or.inl ?_) (sign_exp _))
      (sign_mul (sign_powf (sign_fin (by norm_num))) (FP.SignFns.gamma_sign _ (sign_div (sign_ofNat k) (sign_fin (by norm_num))))))
    show fin (-1) < F64.ofNat k / 2 - 1
    rw [hr]
    have h2 : fin (1 / 2) ≤ fin r / 2 := le_congr rfl (div_fin_ext (Is.fin r) (Is.fin 2) (by norm_num)).symm
      (le_round_of_le (by linarith) (keep_eq 1 1 (by norm_num) (by norm_num) (by norm_num)).1
        (keep_eq 1 1 (by norm_num) (by norm_num) (by norm_num)).2)
    refine lt_of_lt_of_le' (fin_lt_fin.2 (by norm_num : (-1:ℝ) < -(1/2))) (le_trans' ?_ (sub_const_mono Is.one h2))
    have hk := keep_eq (s := -(1/2)) (-1) 1 (by norm_num) (by norm_num) (by norm_num)
    exact le_congr rfl (add_ext (Is.fin (1/2)) Is.one.neg).symm (le_round_of_le (by norm_num) hk.1 hk.2)

/-- C259: Lévy, at every argument from the location on. -/
theorem C259_levy {a b : F64} {d : Levy} (h : Levy.new a b = .ok d) (x : F64) (hx : a ≤ x) : ¬ d.pdf x < 0 := by
  obtain ⟨h0, rfl⟩ := Levy.new_ok.1 h
  have hc := sign_div (sign_of_pos h0) (sign_fin (show (0:ℝ) ≤ 2 by norm_num))
  have h32 : (THREE_HALVES : F64) = fin (3 / 2) := by
    have hk := keep_eq (s := 3 / 2) 3 1 (by norm_num) (by norm_num) (by norm_num)
    have := div_is (a := fin 3) (b := fin 2) (Is.fin 3) (Is.fin 2) (by norm_num) (by rw [hk.1]; exact hk.2)
    rw [hk.1] at this
    exact this.eq_fin (by norm_num)
  have hp : ¬ ((x - a).powf THREE_HALVES).isNeg := by
    rcases sign_sub' hx with h | h
    · exact sign_powf h
    · rw [h, h32]
      have ho : ¬ isOdd (3 / 2) := by
        rintro ⟨n, hn, -⟩
        have h1 : (3:ℝ) = 2 * n := by rw [← hn]; norm_num
        have : (3:ℤ) = 2 * n := by exact_mod_cast h1
        omega
      simp [F64.powf, F64.isFinite, F64.toReal, F64.isNeg, ho, szero]
  exact not_lt_of_sign (sign_div (sign_mul (sign_sqrt (sign_div hc (sign_lit Real.pi_pos.le))) (sign_exp _)) hp)

/-- NaN or a zero of either sign -/
theorem zn_mul {a b : F64} (ha : a = nan ∨ a.Is 0) : a * b = nan ∨ (a * b).Is 0 := by
  rcases ha with rfl | ha
  · exact Or.inl (nan_mul' b)
  · cases b with
    | nan => left; show F64.mul a nan = nan; cases a <;> rfl
    | pinf => left; rcases ha with rfl | ⟨rfl, _⟩ <;> (show F64.mul _ _ = nan; simp [F64.mul, F64.isInf, F64.isFinite, F64.toReal])
    | ninf => left; rcases ha with rfl | ⟨rfl, _⟩ <;> (show F64.mul _ _ = nan; simp [F64.mul, F64.isInf, F64.isFinite, F64.toReal])
    | negZero =>
      right
      rcases ha with rfl | ⟨rfl, _⟩ <;> (show (F64.mul _ _).Is 0; simp [F64.mul, F64.isInf, F64.toReal]; exact szero_is _)
    | fin r =>
      right
      rcases ha with rfl | ⟨rfl, _⟩ <;> (show (F64.mul _ _).Is 0; simp [F64.mul, F64.isInf, F64.toReal]; exact szero_is _)
theorem zn_div {a b : F64} (ha : a = nan ∨ a.Is 0) : a / b = nan ∨ (a / b).Is 0 := by
  rcases ha with rfl | ha
  · exact Or.inl (nan_div' b)
  · cases b with
    | nan => left; show F64.div a nan = nan; cases a <;> rfl
    | pinf =>
      right
      rcases ha with rfl | ⟨rfl, _⟩ <;> (show (F64.div _ _).Is 0; simp [F64.div, F64.isInf]; exact szero_is _)
    | ninf =>
      right
      rcases ha with rfl | ⟨rfl, _⟩ <;> (show (F64.div _ _).Is 0; simp [F64.div, F64.isInf]; exact szero_is _)
    | negZero => left; exact zero_div_zero' ha Is.negZero
    | fin r =>
      by_cases hr : r = 0
      · subst hr; left; exact zero_div_zero' ha Is.zero
      · right
        rcases ha with rfl | ⟨rfl, _⟩ <;> (show (F64.div _ _).Is 0; simp [F64.div, F64.isInf, F64.toReal, hr]; exact szero_is _)
theorem zn_sqrt {a : F64} (ha : a = nan ∨ a.Is 0) : a.sqrt = nan ∨ a.sqrt.Is 0 := by
  rcases ha with rfl | ha
  · exact Or.inl rfl
  · right
    rcases ha with rfl | ⟨rfl, _⟩
    · show (if (0:ℝ) < 0 then nan else F64.round (Real.sqrt 0)).Is 0
      rw [if_neg (lt_irrefl _), Real.sqrt_zero]; exact round_zero_is
    · exact Is.negZero
theorem zn_quot {a b : F64} (ha : a = nan ∨ a.Is 0) (hb : b = nan ∨ b.Is 0) : a / b = nan := by
  rcases ha with rfl | ha
  · exact nan_div' b
  · rcases hb with rfl | hb
    · show F64.div a nan = nan; cases a <;> rfl
    · exact zero_div_zero' ha hb
theorem zn_powf {a : F64} {s : ℝ} (ha : a = nan ∨ a.Is 0) (hs : 0 < s) : a.powf (fin s) = nan ∨ (a.powf (fin s)).Is 0 := by
  rcases ha with rfl | ha
  · left; simp [F64.powf, F64.isFinite, F64.toReal, hs.ne']
  · right
    rcases ha with rfl | ⟨rfl, _⟩ <;>
      (simp only [F64.powf, F64.isFinite, F64.toReal]; rw [if_neg (by simp [hs.ne']), if_neg (by simp)]; simp [hs]; exact szero_is _)

/-- C259: F-distribution, at every non-negative argument (`-0` and `+inf` included). -/
theorem C259_f_dist [FP.SignFns] {k l : ℕ} (hk : k < 2 ^ 64) {d : FDist} (h : FDist.new k l = .ok d) (x : F64) (hx : 0 ≤ x) :
    ¬ d.pdf x < 0 := by
  obtain ⟨h0, h1, rfl⟩ := FDist.new_ok.1 h
  obtain ⟨r, hr, r1⟩ := ofNat_pos hk h0
  rcases sign_or hx with hs | rfl
  · exact not_lt_of_sign (sign_div (sign_sqrt (sign_div (sign_mul (sign_powf (sign_mul (sign_ofNat k) hs)) (sign_powf (sign_ofNat l)))
      (sign_powf (sign_add (sign_mul (sign_ofNat k) hs) (sign_ofNat l)))))
      (sign_mul hs (FP.SignFns.beta_sign _ _ (sign_div (sign_ofNat k) (sign_fin (by norm_num)))
        (sign_div (sign_ofNat l) (sign_fin (by norm_num))))))
  · have hz : F64.ofNat k * negZero = nan ∨ (F64.ofNat k * negZero).Is 0 := by
      right
      rw [hr]
      show (F64.mul (fin r) negZero).Is 0
      simp [F64.mul, F64.isInf, F64.toReal]; exact szero_is _
    have hp : (F64.ofNat k * negZero).powf (F64.ofNat k) = nan ∨ ((F64.ofNat k * negZero).powf (F64.ofNat k)).Is 0 := by
      have := zn_powf (s := r) hz (by linarith)
      rwa [← hr] at this
    have : FDist.pdf ⟨k, l⟩ negZero = nan := zn_quot (zn_sqrt (zn_div (zn_mul hp))) (zn_mul (Or.inr Is.negZero))
    rw [this]; exact not_lt_of_sign id

/-- C259: inverse normal, at every non-negative argument (`-0` and `+inf` included). -/
theorem C259_inv_normal {a b : F64} {d : InvNormal} (h : InvNormal.new a b = .ok d) (x : F64) (hx : 0 ≤ x) : ¬ d.pdf x < 0 := by
  obtain ⟨h0, h1, rfl⟩ := InvNormal.new_ok.1 h
  have hq : ¬ (b / PI_2).isNeg := sign_div (sign_of_pos h1) (sign_mul (sign_lit Real.pi_pos.le) (sign_fin (by norm_num)))
  rcases sign_or hx with hs | rfl
  · exact not_lt_of_sign (sign_mul (sign_sqrt (sign_div (sign_div (sign_div hq hs) hs) hs)) (sign_exp _))
  · have hn : (b / PI_2 / negZero / negZero / negZero).sqrt = nan := by
      generalize b / PI_2 = q at hq
      have h2 : q / negZero = nan ∨ q / negZero = ninf := by
        show F64.div q negZero = nan ∨ F64.div q negZero = ninf
        cases q with
        | nan => exact Or.inl rfl
        | pinf => right; simp [F64.div, F64.isInf, F64.isNeg, sinf]
        | ninf => exact absurd trivial hq
        | negZero => exact absurd trivial hq
        | fin r =>
          have : ¬ r < 0 := hq
          by_cases hr : r = 0
          · left; simp [F64.div, F64.isInf, F64.toReal, hr]
          · right; simp [F64.div, F64.isInf, F64.toReal, hr, F64.isNeg, sinf, this]
      rcases h2 with h2 | h2
      · rw [h2]; rfl
      · rw [h2, show (ninf / negZero : F64) = pinf by show F64.div ninf negZero = pinf; simp [F64.div, F64.isInf, F64.isNeg, sinf],
          show (pinf / negZero : F64) = ninf by show F64.div pinf negZero = ninf; simp [F64.div, F64.isInf, F64.isNeg, sinf]]
        rfl
    have : InvNormal.pdf ⟨a, b, UvNormal.standard⟩ negZero = nan := by
      unfold InvNormal.pdf
      dsimp only
      rw [hn, nan_mul']
    rw [this]; exact not_lt_of_sign id

/-- C259 (Fréchet, except at `-0`). -/
theorem C259_frechet_partial {a : F64} {d : Frechet} (h : Frechet.new a = .ok d) (x : F64) (hx : 0 ≤ x) (hz : x ≠ negZero) :
    ¬ d.pdf x < 0 := by
  obtain ⟨h0, rfl⟩ := Frechet.new_ok.1 h
  exact not_lt_of_sign (sign_mul (sign_mul (sign_of_pos h0) (sign_powf (sign_of_nonneg hx hz))) (sign_exp _))

theorem f64_mul_comm (a b : F64) : a * b = b * a := by
  show F64.mul a b = F64.mul b a
  cases a <;> cases b <;> simp [F64.mul, F64.isInf, F64.isFinite, F64.isNeg, F64.toReal, _root_.mul_comm, iff_comm, or_comm]
theorem sign_mul_right {a b : F64} (ha : ¬ a.isNeg) (hb : ¬ b.isNeg ∨ b = negZero) : ¬ (a * b).isNeg ∨ a * b = negZero := by
  rw [f64_mul_comm]; exact sign_mul' hb ha

/-- C259 (Gamma, Weibull): at every non-negative argument, except at `-0` when the exponent `shape - 1` rounds to -1. -/
theorem C259_gamma_weibull_partial [FP.SignFns] {a b : F64} {x : F64} (hx : 0 ≤ x) :
    (∀ d, Gamma.new a b = .ok d → (x = negZero → fin (-1) < a - 1) → ¬ d.pdf x < 0) ∧
    (∀ d, Weibull.new a b = .ok d → (x = negZero → fin (-1) < b - 1) → ¬ d.pdf x < 0) := by
  refine ⟨fun d h hz => ?_, fun d h hz => ?_⟩
  · obtain ⟨h0, h1, rfl⟩ := Gamma.new_ok.1 h
    exact not_lt_of_sign' (sign_div' (sign_mul' (sign_mul_right (sign_powf (sign_of_pos h1))
      (sign_powf' (sign_or hx) fun e => Or.inl (hz e))) (sign_exp _)) (FP.SignFns.gamma_sign _ (sign_of_pos h0)))
  · obtain ⟨h0, h1, rfl⟩ := Weibull.new_ok.1 h
    unfold Weibull.pdf
    dsimp only
    rw [if_pos hx]
    refine not_lt_of_sign' (sign_mul' (sign_mul_right (sign_div (sign_of_pos h1) (sign_of_pos h0))
      (sign_powf' (sign_div' (sign_or hx) (sign_of_pos h0)) fun e => Or.inl (hz ?_))) (sign_exp _))
    rcases sign_or hx with h2 | h2
    · exact absurd (by rw [e]; trivial) (sign_div h2 (sign_of_pos h0))
    · exact h2

/-- C259 (Beta, Kumaraswamy): at every argument of [0,1], except at `-0` when the exponent `shape - 1` rounds to -1. -/
theorem C259_beta_kumaraswamy_partial [FP.SignFns] {a b : F64} {x : F64} (hx : 0 ≤ x) (h1 : x ≤ 1) (hz : x = negZero → fin (-1) < a - 1) :
    (∀ d, BetaDist.new a b = .ok d → ¬ d.pdf x < 0) ∧ (∀ d, Kumaraswamy.new a b = .ok d → ¬ d.pdf x < 0) := by
  have h1m : ∀ {y : F64}, y ≤ 1 → ¬ (1 - y).isNeg := fun h => sign_sub h fun _ e => by
    have := congrArg F64.isNeg e; simp [F64.isNeg] at this; exact absurd this (by norm_num)
  refine ⟨fun d h => ?_, fun d h => ?_⟩
  · obtain ⟨p0, q0, rfl⟩ := BetaDist.new_ok.1 h
    exact not_lt_of_sign' (sign_div' (sign_mul' (sign_powf' (sign_or hx) fun e => Or.inl (hz e)) (sign_powf (h1m h1)))
      (FP.SignFns.beta_sign _ _ (sign_of_pos p0) (sign_of_pos q0)))
  · obtain ⟨p0, q0, rfl⟩ := Kumaraswamy.new_ok.1 h
    exact not_lt_of_sign' (sign_mul' (sign_mul_right (sign_mul (sign_of_pos p0) (sign_of_pos q0))
      (sign_powf' (sign_or hx) fun e => Or.inl (hz e))) (sign_powf (h1m (powf_le1_of hx h1 (le_of_lt' p0)))))

/-- C259 (beta prime): at every non-negative argument, except at `-0` when the exponent `shape - 1` rounds to -1. -/
theorem C259_beta_prime_partial [FP.SignFns] {a b : F64} {x : F64} {d : BetaPrime} (h : BetaPrime.new a b = .ok d) (hx : 0 ≤ x)
    (hz : x = negZero → fin (-1) < a - 1) : ¬ d.pdf x < 0 := by
  obtain ⟨p0, q0, rfl⟩ := BetaPrime.new_ok.1 h
  have h1 : ¬ (1 + x).isNeg := by
    rcases sign_or hx with h2 | rfl
    · exact sign_add sign_one h2
    · exact sign_round (show (0:ℝ) ≤ 1 + 0 by norm_num)
  exact not_lt_of_sign' (sign_div' (sign_mul' (sign_powf' (sign_or hx) fun e => Or.inl (hz e)) (sign_powf h1))
      (FP.SignFns.beta_sign _ _ (sign_of_pos p0) (sign_of_pos q0)))

/-- C259 (inverse Gamma): at every non-negative argument except `-0`. -/
theorem C259_inv_gamma_partial [FP.SignFns] {a b : F64} {x : F64} {d : InvGamma} (h : InvGamma.new a b = .ok d) (hx : 0 ≤ x)
    (hz : x ≠ negZero) : ¬ d.pdf x < 0 := by
  obtain ⟨p0, q0, rfl⟩ := InvGamma.new_ok.1 h
  exact not_lt_of_sign (sign_div (sign_mul (sign_mul (sign_powf (sign_of_pos q0)) (sign_powf (sign_of_nonneg hx hz))) (sign_exp _))
    (FP.SignFns.gamma_sign _ (sign_of_pos p0)))

theorem le_of_not_lt' {a x : F64} (ha : a ≠ nan) (hx : x ≠ nan) (h : ¬ x < a) : a ≤ x := by
  obtain ⟨u, hu⟩ : ∃ u, a.ext = some u := by cases a <;> first | exact absurd rfl ha | exact ⟨_, rfl⟩
  obtain ⟨v, hv⟩ : ∃ v, x.ext = some v := by cases x <;> first | exact absurd rfl hx | exact ⟨_, rfl⟩
  exact ⟨u, v, hu, hv, not_lt.1 fun hl => h ⟨v, u, hv, hu, hl⟩⟩

/-- C259 (Pareto with a positive scale): at every argument. -/
theorem C259_pareto_partial {a b : F64} {x : F64} {d : Pareto} (h : Pareto.new a b = .ok d) (ha : 0 < a) : ¬ d.pdf x < 0 := by
  obtain ⟨q0, rfl⟩ := Pareto.new_ok.1 h
  unfold Pareto.pdf
  dsimp only
  split_ifs with h1
  · exact not_lt_of_sign (sign_fin le_rfl)
  · by_cases hx : x = nan
    · subst hx
      refine not_lt_of_sign ?_
      have : ¬ ((nan : F64).powf (b + 1)).isNeg := sign_powf id
      exact sign_div (sign_mul (sign_of_pos q0) (sign_powf (sign_of_pos ha))) this
    · have h2 : ¬ x.isNeg := by
        have : a ≤ x := le_of_not_lt' (fun e => by subst e; exact absurd ha (F64.not_lt_nan _)) hx h1
        exact sign_of_pos (lt_of_lt_of_le' ha this)
      exact not_lt_of_sign (sign_div (sign_mul (sign_of_pos q0) (sign_powf (sign_of_pos ha))) (sign_powf h2))

/-- C259 (Student with positive degrees of freedom): at every argument. -/
theorem C259_student_partial [FP.SignFns] {a : F64} {x : F64} {d : StudentT} (h : StudentT.new a = .ok d) (ha : 0 < a) :
    ¬ d.pdf x < 0 := by
  rw [StudentT.new_ok.1 h]
  have hs := sign_of_pos ha
  have h1 : ¬ ((a + 1) / 2).isNeg := sign_div (sign_add hs sign_one) (sign_fin (by norm_num))
  exact not_lt_of_sign (sign_mul (sign_div (sign_div (FP.SignFns.gamma_sign _ h1) (sign_sqrt (sign_mul hs (sign_lit Real.pi_pos.le))))
      (FP.SignFns.gamma_sign _ (sign_div hs (sign_fin (by norm_num))))) (sign_powf (sign_add sign_one (sign_div (sign_sq x) hs))))

/-- C259: Erlang, wherever it returns. -/
theorem C259_erlang {pr : Profile} {d : Erlang} {x v : F64} (h : d.pdf pr x = .ok v) : ¬ v < 0 := by
  unfold Erlang.pdf at h
  obtain ⟨l, _, h⟩ := (exc_bind_ok _ _ _).1 h
  cases h
  exact not_lt_of_sign (sign_exp _)

/-- C259 (generalised extreme value): wherever `1 + zeta z` is positive. -/
theorem C259_gev_partial {a b c : F64} {x : F64} {d : GeneralisedExtremeValue} (h : GeneralisedExtremeValue.new a b c = .ok d)
    (hx : 0 < 1 + c * ((x - a) / b)) : ¬ d.pdf x < 0 := by
  obtain ⟨q0, z0, rfl⟩ := GeneralisedExtremeValue.new_ok.1 h
  have ht : ¬ (GeneralisedExtremeValue.tFunc ⟨a, b, c⟩ x).isNeg := by
    unfold GeneralisedExtremeValue.tFunc
    dsimp only
    split_ifs
    · exact sign_exp _
    · exact sign_powf (sign_of_pos hx)
  exact not_lt_of_sign (sign_div (sign_mul (sign_powf ht) (sign_exp _)) (sign_of_pos q0))

theorem add_rep' {a b : F64} {r s : ℝ} (ha : a.Is r) (hb : b.Is s) : a + b = pinf ∨ a + b = ninf ∨ ∃ t, (a + b).Rep t := by
  have hr : ∀ v : ℝ, F64.round v = pinf ∨ F64.round v = ninf ∨ ∃ t, (F64.round v).Rep t := by
    intro v
    unfold F64.round
    split_ifs with h1 h2 h3
    · exact Or.inl rfl
    · exact Or.inr (Or.inl rfl)
    · exact Or.inr (Or.inr ⟨0, Is.negZero, rnd_zero, not_huge_zero⟩)
    · exact Or.inr (Or.inr ⟨FP.rnd v, Is.fin _, FP.Lawful.rnd_idem v, h1⟩)
  rcases ha with rfl | ⟨rfl, rfl⟩ <;> rcases hb with rfl | ⟨rfl, rfl⟩
  · exact hr (r + s)
  · exact hr (r + 0)
  · exact hr (0 + s)
  · exact Or.inr (Or.inr ⟨0, Is.negZero, rnd_zero, not_huge_zero⟩)

/-- C259: triangular, at every argument. -/
theorem C259_triangular {a p q : F64} {r : ℝ} {d : Triangular} (h : Triangular.new a p q = .ok d) (ha : a.Rep r) (x : F64) :
    ¬ d.pdf x < 0 := by
  obtain ⟨p0, q0, rfl⟩ := Triangular.new_ok.1 h
  obtain ⟨c, hc⟩ : ∃ c, a + p = c := ⟨_, rfl⟩
  obtain ⟨b, hb⟩ : ∃ b, c + q = b := ⟨_, rfl⟩
  have ec : Triangular.c ⟨a, p, q⟩ = c := hc
  have eb : Triangular.b ⟨a, p, q⟩ = b := by show Triangular.c ⟨a, p, q⟩ + q = b; rw [ec, hb]
  have hac : a ≤ c := by rw [← hc]; exact le_add_self_of ha (le_of_lt' p0)
  have hcb : c ≤ b := by
    have top : c = pinf → c ≤ b := by
      intro e
      have : b = pinf := by
        rw [← hb, e]
        rcases pos_cases q0 with rfl | ⟨u, rfl, _⟩
        · rfl
        · exact pinf_add (Is.fin u)
      rw [e, this]; exact le_top' (by simp)
    rcases pos_cases p0 with rfl | ⟨s, rfl, hs⟩
    · exact top (by rw [← hc]; exact fin_add_pinf ha.1)
    · rcases add_rep' ha.1 (Is.fin s) with e | e | ⟨t, e⟩
      · exact top (hc.symm.trans e)
      · exfalso
        rw [← hc, e] at hac
        obtain ⟨u, v, h1, h2, h3⟩ := hac
        have : v = ⊥ := by simpa [F64.ext] using h2.symm
        subst this
        rw [le_bot_iff] at h3
        subst h3
        rcases ha.1 with rfl | ⟨rfl, _⟩ <;> simp [F64.ext] at h1
      · rw [hc] at e
        rw [← hb]; exact le_add_self_of e (le_of_lt' q0)
  have cz : a = fin 0 → ¬ c.isNeg := fun e => by rw [← hc, e]; exact sign_add (sign_fin le_rfl) (sign_of_pos p0)
  have bz : a = fin 0 → ¬ b.isNeg := fun e => by rw [← hb]; exact sign_add (cz e) (sign_of_pos q0)
  have ne : ∀ {y : F64}, ¬ y.isNeg → y ≠ negZero := fun h e => h (by rw [e]; trivial)
  have hba : ¬ (b - a).isNeg := sign_sub (le_trans' hac hcb) fun e => ne (bz e)
  unfold Triangular.pdf
  rw [ec, eb]
  dsimp only
  split_ifs with h1 h2 h3 h4
  · exact not_lt_of_sign (sign_fin le_rfl)
  · exact not_lt_of_sign (sign_div (sign_fin (by norm_num)) hba)
  · have hx : x ≠ nan := fun e => by subst e; obtain ⟨u, _, hu, _⟩ := h3; cases hu
    have hax : a ≤ x := by
      refine le_of_not_lt' ha.1.ne_nan hx fun hl => h1 (le_of_lt' hl)
    exact not_lt_of_sign' (sign_div' (sign_div' (sign_mul_right (sign_fin (by norm_num)) (sign_sub' hax)) hba)
      (sign_sub hac fun e => ne (cz e)))
  · exact not_lt_of_sign' (sign_div' (sign_div' (sign_mul_right (sign_fin (by norm_num)) (sign_sub' h4)) hba)
      (sign_sub hcb fun e => ne (by rw [← hb, e]; exact sign_add (sign_fin le_rfl) (sign_of_pos q0))))
  · exact not_lt_of_sign (sign_fin le_rfl)

/-- C259 (arcsine): at every argument of the support except `-0` (the upper end not `-0` either). -/
theorem C259_arcsine_partial {a b : F64} {d : Arcsine} (h : Arcsine.new a b = .ok d) (x : F64) (h1 : d.support.1 ≤ x)
    (h2 : x ≤ d.support.2) (hz : x ≠ negZero) (hb : d.support.2 ≠ negZero) : ¬ d.pdf x < 0 := by
  obtain ⟨p0, rfl⟩ := Arcsine.new_ok.1 h
  exact not_lt_of_sign (sign_div (sign_div sign_one (sign_lit Real.pi_pos.le))
    (sign_sqrt (sign_mul (sign_sub h1 fun _ => hz) (sign_sub h2 fun _ => hb))))

/-! ### negative densities -/
theorem over_pi_pos : ∃ q, (ONE_OVER_PI : F64) = fin q ∧ 0 < q := by
  have hd : Btw (1 / 8) 1 (1 / PI : F64) := Btw.div (Btw.num Is.one) pi_btw (by norm_num)
    (keep_eq 1 3 (by norm_num) (by norm_num) (by norm_num)) (keep_eq 1 0 (by norm_num) (by norm_num) (by norm_num))
    (by
      intro x y hx hx' hy hy'
      have : x = 1 := le_antisymm hx' hx
      subst this
      refine ⟨by rw [div_le_div_iff₀ (by norm_num) (by linarith)]; linarith, by rw [div_le_one (by linarith)]; linarith⟩)
  obtain ⟨q, h, h1, -⟩ := hd.pos (by norm_num)
  exact ⟨q, h, h1⟩

theorem div_negZero {q : ℝ} (hq : 0 < q) : fin q / negZero = ninf := by
  show F64.div (fin q) negZero = ninf
  simp [F64.div, F64.isInf, F64.toReal, F64.isNeg, sinf, hq.ne', not_lt.2 hq.le]
theorem sgn_mul_ninf {a : F64} (h : 0 < a) : a * ninf = ninf := by
  rcases pos_cases h with rfl | ⟨q, rfl, hq⟩
  · show F64.mul pinf ninf = ninf; simp [F64.mul, F64.isInf, F64.isFinite, F64.isNeg, sinf]
  · show F64.mul (fin q) ninf = ninf
    simp [F64.mul, F64.isInf, F64.isFinite, F64.toReal, F64.isNeg, sinf, hq.ne', not_lt.2 hq.le]
theorem ninf_div_fin {q : ℝ} (hq : 0 < q) : ninf / fin q = ninf := by
  show F64.div ninf (fin q) = ninf
  simp [F64.div, F64.isInf, F64.isNeg, sinf, not_lt.2 hq.le]
/-- `(-0)` to a negative odd power -/
theorem negZero_pow {b : F64} {n : ℕ} (h : b.Is (-(2 * n + 1))) : (negZero : F64).powf b = ninf := by
  have hb : b = fin (-(2 * n + 1)) := h.eq_fin (by have : (0:ℝ) ≤ n := Nat.cast_nonneg n; linarith)
  subst hb
  have hn : (0:ℝ) ≤ n := Nat.cast_nonneg n
  have ho : isOdd (-(2 * (n:ℝ) + 1)) := ⟨-(2 * n + 1), by push_cast; ring, ⟨-(n:ℤ) - 1, by ring⟩⟩
  have h0 : ¬ (-(2 * (n:ℝ) + 1) = 0) := by linarith
  have h1 : ¬ (0 < -(2 * (n:ℝ) + 1)) := by linarith
  generalize -(2 * (n:ℝ) + 1) = e at *
  simp [F64.powf, F64.isFinite, F64.toReal, F64.isNeg, h0, h1, ho, sinf]

/-- C259 (violated): the computed density of every arcsine law that starts at 0 is minus infinity at `-0`. -/
theorem C259_arcsine_violated {b : F64} {w : ℝ} {d : Arcsine} (h : Arcsine.new 0 b = .ok d) (hb : b.Rep w) :
    d.support.1 ≤ negZero ∧ negZero ≤ d.support.2 ∧ d.pdf negZero = ninf := by
  obtain ⟨p0, rfl⟩ := Arcsine.new_ok.1 h
  have w0 := pos_of_lt p0 hb.1
  have hs : ((0:F64) + b).Is w := by
    have := add_is Is.zero hb.1 (by rw [zero_add, hb.2.1]; exact hb.2.2)
    rwa [zero_add, hb.2.1] at this
  have hd : ((0:F64) + b - negZero).Is w := by
    have := sub_is hs Is.negZero (by rw [sub_zero, hb.2.1]; exact hb.2.2)
    rwa [sub_zero, hb.2.1] at this
  obtain ⟨q, hq, q0⟩ := over_pi_pos
  refine ⟨(Is.zero.le_iff Is.negZero).2 le_rfl, (Is.negZero.le_iff hs).2 w0.le, ?_⟩
  have h1 : (negZero - 0 : F64) = negZero := by show F64.add negZero (F64.neg (fin 0)) = negZero; simp [F64.neg, F64.add]
  have h2 : (negZero * fin w : F64) = negZero := by
    show F64.mul negZero (fin w) = negZero
    simp [F64.mul, F64.isInf, F64.toReal, F64.isNeg, szero, not_lt.2 w0.le]
  show ONE_OVER_PI / ((negZero - 0) * ((0:F64) + b - negZero)).sqrt = ninf
  rw [h1, hd.eq_fin w0.ne', h2, show (negZero : F64).sqrt = negZero from rfl, hq, div_negZero q0]

/-- C259 (violated): for every inverse Gamma law with an even shape 2n the computed density at `-0` is minus infinity (while no
factor overflows). -/
theorem C259_inv_gamma_violated {a b : F64} {n : ℕ} {g : ℝ} {d : InvGamma} (h : InvGamma.new a b = .ok d) (hb : b.isFinite)
    (he : (-a - 1).Is (-(2 * n + 1))) (hp : 0 < b.powf a) (hg : a.gamma.Is g) (hg0 : 0 < g) :
    (0:F64) ≤ negZero ∧ d.pdf negZero = ninf := by
  obtain ⟨p0, q0, rfl⟩ := InvGamma.new_ok.1 h
  refine ⟨(Is.zero.le_iff Is.negZero).2 le_rfl, ?_⟩
  obtain ⟨s, rfl, hs⟩ := finite_pos q0 hb
  have h1 : -(fin s) / negZero = (pinf : F64) := by
    show F64.div (F64.neg (fin s)) negZero = pinf
    simp [F64.neg, hs.ne', F64.div, F64.isInf, F64.toReal, F64.isNeg, sinf, hs]
  show (fin s).powf a * (negZero : F64).powf (-a - 1) * (-(fin s) / negZero).exp / a.gamma = ninf
  rw [negZero_pow he, sgn_mul_ninf hp, h1, show (pinf : F64).exp = pinf from rfl,
    show (ninf * pinf : F64) = ninf by show F64.mul ninf pinf = ninf; simp [F64.mul, F64.isInf, F64.isFinite, F64.isNeg, sinf],
    hg.eq_fin hg0.ne', ninf_div_fin hg0]

/-- C259 (violated): for every Weibull law whose shape `k` is so small that `k - 1` rounds to -1, the computed density at `-0` is
minus infinity. -/
theorem C259_weibull_violated {a b : F64} {k : ℝ} {d : Weibull} (h : Weibull.new a b = .ok d) (ha : a.isFinite) (hk : b.Is k) (hk1 : k < 1)
    (he : (b - 1).Is (-1)) (hp : 0 < b / a) : (0:F64) ≤ negZero ∧ d.pdf negZero = ninf := by
  obtain ⟨p0, q0, rfl⟩ := Weibull.new_ok.1 h
  have hz : (0:F64) ≤ negZero := (Is.zero.le_iff Is.negZero).2 le_rfl
  refine ⟨hz, ?_⟩
  obtain ⟨s, rfl, hs⟩ := finite_pos p0 ha
  have k0 := pos_of_lt q0 hk
  have hb : b = fin k := hk.eq_fin k0.ne'
  subst hb
  have h1 : (negZero / fin s : F64) = negZero := by
    show F64.div negZero (fin s) = negZero
    simp [F64.div, F64.isInf, F64.toReal, F64.isNeg, szero, hs.ne', not_lt.2 hs.le]
  have ho : ¬ isOdd k := by
    rintro ⟨m, rfl, -⟩
    have h1 : (0:ℤ) < m := by exact_mod_cast k0
    have h2 : m < 1 := by exact_mod_cast hk1
    omega
  have h2 : (negZero : F64).powf (fin k) = fin 0 := by
    simp [F64.powf, F64.isFinite, F64.toReal, F64.isNeg, k0, k0.ne', ho, szero]
  have h3 : (-(fin 0 : F64)).exp.Is 1 := by
    have : -(fin 0 : F64) = negZero := by show F64.neg (fin 0) = negZero; simp [F64.neg]
    rw [this]
    show (F64.round (FP.fexp 0)).Is 1
    rw [FP.Libm.exp_zero]; exact round_one_is
  have h4 : (negZero : F64).powf (fin k - 1) = ninf := negZero_pow (n := 0) (by simpa using he)
  unfold Weibull.pdf
  dsimp only
  rw [if_pos hz, h1, h2, h4, sgn_mul_ninf hp, h3.eq_fin one_ne_zero, f64_mul_comm, sgn_mul_ninf (lt_of_pos one_pos (Is.fin 1))]

/-- C259 (violated): for every Kumaraswamy law whose first shape is so small that `a - 1` rounds to -1, the computed density at
`-0` is minus infinity. -/
theorem C259_kumaraswamy_violated {a b : F64} {k : ℝ} {d : Kumaraswamy} (h : Kumaraswamy.new a b = .ok d) (hk : a.Is k) (hk1 : k < 1)
    (he : (a - 1).Is (-1)) (hp : 0 < a * b) : (0:F64) ≤ negZero ∧ (negZero : F64) ≤ 1 ∧ d.pdf negZero = ninf := by
  obtain ⟨p0, q0, rfl⟩ := Kumaraswamy.new_ok.1 h
  refine ⟨(Is.zero.le_iff Is.negZero).2 le_rfl, (Is.negZero.le_iff Is.one).2 zero_le_one, ?_⟩
  have k0 := pos_of_lt p0 hk
  have hb : a = fin k := hk.eq_fin k0.ne'
  subst hb
  have ho : ¬ isOdd k := by
    rintro ⟨m, rfl, -⟩
    have h1 : (0:ℤ) < m := by exact_mod_cast k0
    have h2 : m < 1 := by exact_mod_cast hk1
    omega
  have h2 : (negZero : F64).powf (fin k) = fin 0 := by
    simp [F64.powf, F64.isFinite, F64.toReal, F64.isNeg, k0, k0.ne', ho, szero]
  have h3 : (1 - fin 0 : F64).Is 1 := by
    have := sub_is Is.one (Is.fin 0) (by rw [sub_zero, rnd_one]; exact not_huge_one)
    rwa [sub_zero, rnd_one] at this
  have h5 : (fin 1 : F64).powf (b - 1) = fin 1 := by
    unfold F64.powf
    split_ifs with c1 c2
    · rfl
    · rfl
    · exact absurd ⟨trivial, rfl⟩ c2
  have h4 : (negZero : F64).powf (fin k - 1) = ninf := negZero_pow (n := 0) (by simpa using he)
  show fin k * b * (negZero : F64).powf (fin k - 1) * (1 - (negZero : F64).powf (fin k)).powf (b - 1) = ninf
  rw [h2, h3.eq_fin one_ne_zero, h5, h4, sgn_mul_ninf hp, f64_mul_comm, sgn_mul_ninf (lt_of_pos one_pos (Is.fin 1))]

/-- C259 (violated): a Pareto law with scale -1 and an even shape is accepted; its computed density at -1 is negative. -/
theorem C259_pareto_violated {n : ℕ} (hn : 0 < n) (hn' : n < 2 ^ 51) {b : F64} (hb : b = fin (2 * n)) :
    ∃ d v, Pareto.new (fin (-1)) b = .ok d ∧ (d.pdf (fin (-1))).Is v ∧ v < 0 := by
  have n0 : (0:ℝ) < n := by exact_mod_cast hn
  have kn : Keep (2 * (n:ℝ)) := keep_eq (2 * n) 0 (by push_cast; ring) (by rw [abs_of_nonneg (by positivity)]; norm_num at hn' ⊢; omega) (by norm_num)
  have k1 : Keep (2 * (n:ℝ) + 1) := keep_eq (2 * n + 1) 0 (by push_cast; ring)
    (by rw [abs_of_nonneg (by positivity)]; norm_num at hn' ⊢; omega) (by norm_num)
  have km : Keep (-1:ℝ) := keep_eq (-1) 0 (by norm_num) (by norm_num) (by norm_num)
  have kn' : Keep (-(2 * (n:ℝ))) := keep_eq (-(2 * n)) 0 (by push_cast; ring)
    (by rw [abs_neg, abs_of_nonneg (by positivity)]; norm_num at hn' ⊢; omega) (by norm_num)
  subst hb
  have hi : isInt (2 * (n:ℝ)) := ⟨2 * n, by push_cast; ring⟩
  have hi' : isInt (2 * (n:ℝ) + 1) := ⟨2 * n + 1, by push_cast; ring⟩
  have he : ¬ isOdd (2 * (n:ℝ)) := by
    rintro ⟨m, hm, k, hk⟩
    have : (2 * n : ℤ) = m := by exact_mod_cast hm
    omega
  have ho : isOdd (2 * (n:ℝ) + 1) := ⟨2 * n + 1, by push_cast; ring, n, by ring⟩
  have h1 : (fin (-1) : F64).powf (fin (2 * n)) = fin 1 := by
    have : F64.round (FP.fpow 1 (2 * (n:ℝ))) = fin 1 := by
      rw [FP.Libm.pow_one]; exact (round_one_is).eq_fin one_ne_zero
    have h0 : ¬ (2 * (n:ℝ) = 0) := by positivity
    have h2 : ¬ ((-1:ℝ) = 1) := by norm_num
    generalize 2 * (n:ℝ) = e at *
    simp [F64.powf, F64.isFinite, F64.toReal, F64.isNeg, h0, hi, he, this, h2]
  have hb1 : (fin (2 * (n:ℝ)) + 1 : F64) = fin (2 * n + 1) := by
    have := add_is (Is.fin (2 * (n:ℝ))) Is.one (by rw [k1.1]; exact k1.2)
    rw [k1.1] at this
    exact this.eq_fin (by positivity)
  have h3 : (fin (-1) : F64).powf (fin (2 * n + 1)) = fin (-1) := by
    have : F64.round (-FP.fpow 1 (2 * (n:ℝ) + 1)) = fin (-1) := by
      rw [FP.Libm.pow_one]
      have := round_is (r := -1) (by rw [km.1]; exact km.2)
      rw [km.1] at this
      exact this.eq_fin (by norm_num)
    have h0 : ¬ (2 * (n:ℝ) + 1 = 0) := by positivity
    have h2 : ¬ ((-1:ℝ) = 1) := by norm_num
    generalize 2 * (n:ℝ) + 1 = e at *
    simp [F64.powf, F64.isFinite, F64.toReal, F64.isNeg, h0, hi', ho, this, h2]
  refine ⟨⟨fin (-1), fin (2 * n)⟩, -(2 * n), Pareto.new_ok.2 ⟨lt_of_pos (by positivity) (Is.fin _), rfl⟩, ?_, by linarith⟩
  unfold Pareto.pdf
  dsimp only
  rw [if_neg (fun h => lt_irrefl _ (fin_lt_fin.1 h)), hb1, h1, h3]
  have hm := mul_is (Is.fin (2 * (n:ℝ))) (Is.fin 1) (by rw [mul_one, kn.1]; exact kn.2)
  rw [mul_one, kn.1] at hm
  have e : 2 * (n:ℝ) / -1 = -(2 * n) := by ring
  have hd := div_is hm (Is.fin (-1)) (by norm_num) (by rw [e, kn'.1]; exact kn'.2)
  rwa [e, kn'.1] at hd
end

/-! ### the hypotheses are met, and the contract is satisfiable (binary64) -/
section
open B64
attribute [local instance] binary64 binary64_lawful B64.libm

/-- binary64 with correctly rounded special functions satisfies the sign contract -/
theorem B64.signFns : FP.SignFns where
  gamma_sign a ha := by
    show ¬ (B64.special .nan .pinf Real.Gamma a).isNeg
    cases a with
    | nan => exact id
    | pinf => exact id
    | ninf => exact absurd trivial ha
    | negZero => exact absurd trivial ha
    | fin r =>
      have h : 0 ≤ r := not_lt.1 ha
      exact sign_round (Real.Gamma_nonneg_of_nonneg h)
  beta_sign a b ha hb := sign_round (by
    have h1 := sign_toReal ha
    have h2 := sign_toReal hb
    exact div_nonneg (mul_nonneg (Real.Gamma_nonneg_of_nonneg h1) (Real.Gamma_nonneg_of_nonneg h2))
      (Real.Gamma_nonneg_of_nonneg (add_nonneg h1 h2)))
  cos_ge x := Real.neg_one_le_cos x
attribute [local instance] B64.signFns

example : ∃ d, Gamma.new (fin 3) (fin 2) = .ok d ∧ ∀ x, 0 ≤ x → x ≠ negZero → ¬ d.pdf x < 0 := by
  have h : Gamma.new (fin 3) (fin 2) = .ok ⟨fin 3, fin 2⟩ :=
    Gamma.new_ok.2 ⟨fin_lt_fin.2 (by norm_num), fin_lt_fin.2 (by norm_num), rfl⟩
  exact ⟨_, h, fun x hx hz => (C259_gamma_weibull_partial hx).1 _ h fun e => absurd e hz⟩
example : ∃ d, Arcsine.new 0 (fin 1) = .ok d ∧ d.pdf negZero = ninf ∧ ¬ d.pdf (fin (1 / 2)) < 0 := by
  have h : Arcsine.new 0 (fin 1) = .ok ⟨0, fin 1⟩ := Arcsine.new_ok.2 ⟨fin_lt_fin.2 (by norm_num), rfl⟩
  have hb : ((0:F64) + fin 1).Is 1 := by
    have := add_is Is.zero (Is.fin 1) (by rw [zero_add, rnd_one]; exact not_huge_one)
    rwa [zero_add, rnd_one] at this
  refine ⟨_, h, (C259_arcsine_violated h ⟨Is.fin 1, rnd_one, not_huge_one⟩).2.2, C259_arcsine_partial h _ ?_ ?_ (by simp) ?_⟩
  · exact (Is.zero.le_iff (Is.fin _)).2 (by norm_num)
  · exact ((Is.fin _).le_iff hb).2 (by norm_num)
  · intro e
    have : ((0:F64) + fin 1) = negZero := e
    rw [this] at hb
    rcases hb with hb | ⟨_, hb⟩
    · cases hb
    · norm_num at hb
/-- shape 2, rate 1 -/
example : ∃ d, InvGamma.new (fin 2) (fin 1) = .ok d ∧ d.pdf negZero = ninf := by
  have h : InvGamma.new (fin 2) (fin 1) = .ok ⟨fin 2, fin 1⟩ :=
    InvGamma.new_ok.2 ⟨fin_lt_fin.2 (by norm_num), fin_lt_fin.2 (by norm_num), rfl⟩
  have e1 : (-(fin 2) : F64) = fin (-2) := by show F64.neg (fin 2) = _; simp [F64.neg]
  have km : Keep (-3:ℝ) := keep_eq (-3) 0 (by norm_num) (by norm_num) (by norm_num)
  have he : (-(fin 2) - 1 : F64).Is (-(2 * (1:ℕ) + 1)) := by
    have := sub_is (Is.fin (-2)) Is.one (by norm_num; rw [km.1]; exact km.2)
    norm_num at this
    rw [km.1] at this
    rw [e1]; norm_num; exact this
  have hp : (0:F64) < (fin 1).powf (fin 2) := by
    have : (fin 1 : F64).powf (fin 2) = fin 1 := by simp [F64.powf, F64.isFinite, F64.toReal]
    rw [this]; exact fin_lt_fin.2 one_pos
  have hg : (fin 2 : F64).gamma.Is 1 := by
    show (F64.round (Real.Gamma 2)).Is 1
    rw [Real.Gamma_two]; exact round_one_is
  exact ⟨_, h, (C259_inv_gamma_violated h trivial he hp hg one_pos).2⟩
theorem tiny_sub_one : (fin (1 / 2 ^ 60) - 1 : F64).Is (-1) := by
  have hr : rnd (1 / 2 ^ 60 - 1) = -1 := by
    rw [show (1:ℝ) / 2 ^ 60 - 1 = -(1 - 1 / 2 ^ 60) by ring, B64.rnd_neg]
    congr 1
    have := B64.rnd_eq (x := 1 - 1 / 2 ^ 60) (2 ^ 53) (-53) (by norm_num) (by norm_num) (by norm_num) (by
      rw [abs_lt]; constructor <;> norm_num)
    rw [this]; norm_num
  have := sub_is (Is.fin (1 / 2 ^ 60)) Is.one (show ¬ (2:ℝ) ^ 1024 ≤ |rnd (1 / 2 ^ 60 - 1)| by
    rw [hr, abs_neg, abs_one, not_le]; exact one_lt_pow₀ (by norm_num) (by norm_num))
  rwa [show FP.rnd (1 / 2 ^ 60 - 1) = -1 from hr] at this
/-- shape 2^-60, scale 1 -/
example : ∃ d, Weibull.new (fin 1) (fin (1 / 2 ^ 60)) = .ok d ∧ d.pdf negZero = ninf := by
  have h : Weibull.new (fin 1) (fin (1 / 2 ^ 60)) = .ok ⟨fin 1, fin (1 / 2 ^ 60)⟩ :=
    Weibull.new_ok.2 ⟨fin_lt_fin.2 (by norm_num), fin_lt_fin.2 (by norm_num), rfl⟩
  have he := tiny_sub_one
  have hd : (0:F64) < fin (1 / 2 ^ 60) / fin 1 := by
    have k := keep_eq (s := 1 / 2 ^ 60) 1 60 (by norm_num) (by norm_num) (by norm_num)
    have := div_is (Is.fin (1 / 2 ^ 60)) (Is.fin 1) one_ne_zero (by rw [div_one, k.1]; exact k.2)
    rw [div_one, k.1] at this
    exact lt_of_pos (by positivity) this
  exact ⟨_, h, (C259_weibull_violated h trivial (Is.fin _) (by norm_num) he hd).2⟩
/-- shapes 2^-60 and 1 -/
example : ∃ d, Kumaraswamy.new (fin (1 / 2 ^ 60)) (fin 1) = .ok d ∧ d.pdf negZero = ninf := by
  have h : Kumaraswamy.new (fin (1 / 2 ^ 60)) (fin 1) = .ok ⟨fin (1 / 2 ^ 60), fin 1⟩ :=
    Kumaraswamy.new_ok.2 ⟨fin_lt_fin.2 (by norm_num), fin_lt_fin.2 (by norm_num), rfl⟩
  have hd : (0:F64) < fin (1 / 2 ^ 60) * fin 1 := by
    have k := keep_eq (s := 1 / 2 ^ 60) 1 60 (by norm_num) (by norm_num) (by norm_num)
    have := mul_is (Is.fin (1 / 2 ^ 60)) (Is.fin 1) (by rw [mul_one, k.1]; exact k.2)
    rw [mul_one, k.1] at this
    exact lt_of_pos (by positivity) this
  exact ⟨_, h, (C259_kumaraswamy_violated h (Is.fin _) (by norm_num) tiny_sub_one hd).2.2⟩
example : ∃ d, Chi.new 3 = .ok d ∧ ∀ x, 0 ≤ x → ¬ d.pdf x < 0 :=
  ⟨_, Chi.new_ok.2 ⟨by norm_num, rfl⟩, (C259_chi_chi_sq (k := 3) (by norm_num)).1 _ (Chi.new_ok.2 ⟨by norm_num, rfl⟩)⟩
example : ∃ d v, Pareto.new (fin (-1)) (fin (2 * (3:ℕ))) = .ok d ∧ (d.pdf (fin (-1))).Is v ∧ v < 0 :=
  C259_pareto_violated (n := 3) (by norm_num) (by norm_num) rfl
example : ∃ d, Triangular.new (fin 0) (fin 1) (fin 2) = .ok d ∧ ∀ x, ¬ d.pdf x < 0 := by
  have h : Triangular.new (fin 0) (fin 1) (fin 2) = .ok ⟨fin 0, fin 1, fin 2⟩ :=
    Triangular.new_ok.2 ⟨fin_lt_fin.2 (by norm_num), fin_lt_fin.2 (by norm_num), rfl⟩
  exact ⟨_, h, C259_triangular h ⟨Is.fin 0, F64.rnd_zero, not_huge_zero⟩⟩
end
end Rstat
