import Verif.Props.FloatLogs
import Verif.Props.Normal2

/-! C277: the paired and bivariate normal densities in floating point. -/
set_option linter.unusedSectionVars false
namespace Rstat
open F64 Consts Spec MeasureTheory ProbabilityTheory Matrix

section
variable [FP] [FP.Lawful] [FP.Libm] [FP.Accurate]

/-- `x.powi(2)`: two products -/
theorem Rel.powi2 {a : F64} {t : ℝ} {k n : ℕ} (h : Rel a t k n) (hk : 7 + (k + k) ≤ 900) (hn : n + n + 1 ≤ 1000000) :
    Rel (a.powi 2) (t ^ 2) (7 + (k + k)) (n + n + 2) := by
  have e : a.powi 2 = 1 * (a * a) := by
    simp [powi, powiLoop]
    rfl
  rw [e]
  exact ((Rel.one.mul (h.mul h (by omega) (by omega)) hk (by omega)).congr (by ring)).mono le_rfl (by omega)

/-- a sum of three terms, with cancellation at most `r`-fold in the total (the partial difference may cancel completely) -/
theorem Rel.sub_add_amp {a b c : F64} {s t u : ℝ} {j k n : ℕ} (r : ℕ) (ha : Rel a s j n) (hb : ∃ y, b.Is y ∧ |y - t| ≤ n / 2 ^ 52 * |t|) (hc : Rel c u j n)
    (ht : |t| ≤ 2 ^ j) (g1 : 1 / 2 ^ k ≤ |s - t + u|) (g2 : |s - t + u| ≤ 2 ^ k)
    (hr : |s| + |t| + |u| ≤ r * |s - t + u|) (hj : j ≤ 900) (hk : k ≤ 900) (hn : r * (n + 1) ≤ 1000000) (hr0 : 1 ≤ r) :
    Rel (a - b + c) (s - t + u) k (r * (n + 1) + 1) := by
  obtain ⟨s1, s2, x, hx, hxe⟩ := ha
  obtain ⟨y, hy, hye⟩ := hb
  obtain ⟨-, -, z, hz, hze⟩ := hc
  have hn' : n ≤ 1000000 := by nlinarith
  have e1 := unit_small hn'
  have p1 := abs_sub_abs_le_abs_sub x s
  have p2 := abs_sub_abs_le_abs_sub y t
  have q1 : (n:ℝ) / 2 ^ 52 * |s| ≤ 1 / 2 * |s| := by gcongr
  have q2 : (n:ℝ) / 2 ^ 52 * |t| ≤ 1 / 2 * |t| := by gcongr
  have hxy : |x - y| ≤ 2 * |s| + 2 * |t| := by
    have := abs_sub x y
    have := abs_nonneg s; have := abs_nonneg t
    linarith
  have bj : (2:ℝ) ^ j ≤ 2 ^ 900 := pow_le_pow_right₀ (by norm_num) hj
  obtain ⟨R, hR, hRe⟩ := round_near (y := x - y) (by
    have : (2:ℝ) ^ 1020 = 2 ^ 120 * 2 ^ 900 := by rw [← pow_add]
    rw [this]
    have M0 : (0:ℝ) < 2 ^ 900 := by positivity
    have h4 : |x - y| ≤ 4 * 2 ^ 900 := by linarith only [hxy, s2, ht, bj]
    exact h4.trans (mul_le_mul_of_nonneg_right (by norm_num) M0.le))
  have hab : (a - b).Is R := hR.of_ext (add_ext hx hy.neg).symm
  have e : |R + z - (s - t + u)| ≤ ((r * (n + 1) : ℕ) + 1 / 4) / 2 ^ 52 * |s - t + u| := by
    have tiny : (1:ℝ) / 2 ^ 1075 ≤ |s| / 2 ^ 120 := (tiny_scale ((one_div_le_one_div_of_le (by positivity) bj).trans s1))
    rw [show R + z - (s - t + u) = (R - (x - y)) + (x - s) - (y - t) + (z - u) by ring]
    have t1 := abs_add_le (R - (x - y) + (x - s) - (y - t)) (z - u)
    have t2 := abs_sub (R - (x - y) + (x - s)) (y - t)
    have t3 := abs_add_le (R - (x - y)) (x - s)
    have n0 : (0:ℝ) ≤ n := Nat.cast_nonneg n
    have hr' : (n + 1 : ℝ) / 2 ^ 52 * (|s| + |t| + |u|) ≤ (n + 1) / 2 ^ 52 * (r * |s - t + u|) := by gcongr
    have n1 : (n:ℝ) / 2 ^ 52 ≤ 1 / 2 ^ 32 := by
      rw [div_le_div_iff₀ (by norm_num) (by norm_num)]
      have : (n:ℝ) ≤ 1000000 := by exact_mod_cast hn'
      norm_num
      linarith
    have q1' : (n:ℝ) / 2 ^ 52 * |s| ≤ 1 / 2 ^ 32 * |s| := by gcongr
    have q2' : (n:ℝ) / 2 ^ 52 * |t| ≤ 1 / 2 ^ 32 * |t| := by gcongr
    have hxy' : |x - y| ≤ (1 + 1 / 2 ^ 32) * (|s| + |t|) := by
      have := abs_sub x y
      linarith
    have a0 := abs_nonneg s; have b0 := abs_nonneg t; have c0 := abs_nonneg u
    have g : ((r * (n + 1) : ℕ) + 1 / 4) / 2 ^ 52 * |s - t + u| = (n + 1) / 2 ^ 52 * (r * |s - t + u|) + 1 / 4 / 2 ^ 52 * |s - t + u| := by push_cast; ring
    have g0 : 0 ≤ (1:ℝ) / 4 / 2 ^ 52 * |s - t + u| := by positivity
    have g3 : (n + 1 : ℝ) / 2 ^ 52 * (|s| + |t| + |u|) = n / 2 ^ 52 * |s| + n / 2 ^ 52 * |t| + n / 2 ^ 52 * |u| + 1 / 2 ^ 52 * (|s| + |t| + |u|) := by ring
    have g4 : |x - y| / 2 ^ 53 ≤ (1 + 1 / 2 ^ 32) * (|s| + |t|) / 2 ^ 53 := by gcongr
    have g5 : (1 + 1 / 2 ^ 32) * (|s| + |t|) / 2 ^ 53 + |s| / 2 ^ 120 ≤ 1 / 2 ^ 52 * (|s| + |t| + |u|) := by
      norm_num
      linarith
    rw [g]
    linarith
  obtain ⟨Q, hQ, hQe⟩ := Rel.round g1 g2 hk hn e
  exact ⟨g1, g2, Q, hQ.of_ext (add_ext hab hz).symm, hQe⟩

variable {mu S : Fin 2 → F64} {m s : Fin 2 → ℝ}

/-- C277 (paired, part): the density comes out to a relative `2^-42` -/
theorem C277_paired_partial {d : PairedNormal} (h : PairedNormal.new mu S = .ok d) (hm : ∀ i, (mu i).Is (m i)) (hS : ∀ i, (S i).Is (s i))
    (hs : ∀ i, Ordinary (s i)) {x : Fin 2 → F64} {t : Fin 2 → ℝ} (hx : ∀ i, (x i).Is (t i)) (ht : ∀ i, Ordinary |t i - m i|)
    (hz : ((t 0 - m 0) ^ 2 / s 0 + (t 1 - m 1) ^ 2 / s 1) / 2 ≤ 64) :
    RelClose (d.pdf x) (gaussianPDFReal (m 0) (s 0).toNNReal (t 0) * gaussianPDFReal (m 1) (s 1).toNNReal (t 1)) (1 / 2 ^ 42) := by
  obtain ⟨-, rfl⟩ := PairedNormal.new_ok.1 h
  have p0 := (hs 0).pos; have p1 := (hs 1).pos
  have D := fun i => Rel.sub (k := 60) (hx i) (hm i) (ht i).1 (ht i).2 (by norm_num)
  have dp : ∀ i, 0 < (t i - m i) ^ 2 / s i := fun i => by
    have := (ht i).pos
    have := (hs i).pos
    rw [← sq_abs]; positivity
  have T := fun i => ((D i).powi2 (by norm_num) (by norm_num)).div (Rel.ord (hS i) (hs i)) (by norm_num) (by norm_num)
  have Z := (T 0).add (T 1) (dp 0) (dp 1) (by norm_num) (by norm_num)
  have Z0 := add_pos (dp 0) (dp 1)
  have E := (Z.neg.div (Rel.num 2 (by norm_num)) (by norm_num) (by norm_num)).exp 64 (by
    rw [neg_div, abs_neg, abs_of_pos (by positivity)]; exact_mod_cast hz) (by norm_num) (by norm_num)
  have P2 : Rel PI_2 (Real.pi * 2) 9 2 := Rel.pi.mul (Rel.num 2 (by norm_num)) (by norm_num) (by norm_num)
  have Q := fun i => (Rel.ord (hS i) (hs i)).sqrt (hs i).pos (by norm_num) (by norm_num)
  have N := (P2.mul (Q 0) (by norm_num) (by norm_num)).mul (Q 1) (by norm_num) (by norm_num)
  obtain ⟨-, -, y, hy, he⟩ := E.div N (by norm_num) (by norm_num)
  have e : Real.exp (-((t 0 - m 0) ^ 2 / s 0 + (t 1 - m 1) ^ 2 / s 1) / 2) / (Real.pi * 2 * √(s 0) * √(s 1)) =
      gaussianPDFReal (m 0) (s 0).toNNReal (t 0) * gaussianPDFReal (m 1) (s 1).toNNReal (t 1) := by
    simp only [gaussianPDFReal]
    rw [Real.coe_toNNReal _ p0.le, Real.coe_toNNReal _ p1.le, mul_mul_mul_comm, ← Real.exp_add, ← mul_inv,
      Real.sqrt_mul (by positivity) (s 0), Real.sqrt_mul (by positivity) (s 1), mul_mul_mul_comm,
      Real.mul_self_sqrt (by positivity), div_eq_inv_mul]
    congr 2
    · ring
    · field_simp; ring
  rw [← e]
  exact ⟨y, hy, he.trans (mul_le_mul_of_nonneg_right (by norm_num) (abs_nonneg _))⟩

/-- when `|ρ| ≤ 1 - q`, the quadratic form is at least `q` times the sum of squares, and cancellation in it at most `2/q`-fold -/
theorem bv_form {r a b q : ℝ} (h : |r| ≤ 1 - q) (q0 : 0 < q) :
    q * (a ^ 2 + b ^ 2) ≤ a ^ 2 - 2 * r * a * b + b ^ 2 ∧ a ^ 2 + |2 * r * a * b| + b ^ 2 ≤ 2 / q * (a ^ 2 - 2 * r * a * b + b ^ 2) ∧
    |2 * r * a * b| ≤ a ^ 2 + b ^ 2 := by
  have e : |2 * r * a * b| = |r| * (2 * |a| * |b|) := by rw [abs_mul, abs_mul, abs_mul, abs_two]; ring
  have k : 2 * |a| * |b| ≤ a ^ 2 + b ^ 2 := by
    have := sq_nonneg (|a| - |b|)
    rw [← sq_abs a, ← sq_abs b]; linarith
  have k2 : |r| * (2 * |a| * |b|) ≤ (1 - q) * (a ^ 2 + b ^ 2) := mul_le_mul h k (by positivity) (by linarith [abs_nonneg r])
  have l := le_abs_self (2 * r * a * b)
  have s0 : 0 ≤ a ^ 2 + b ^ 2 := by positivity
  have k3 : (1 - q) * (a ^ 2 + b ^ 2) ≤ 1 * (a ^ 2 + b ^ 2) := by gcongr; linarith
  have f1 : q * (a ^ 2 + b ^ 2) ≤ a ^ 2 - 2 * r * a * b + b ^ 2 := by rw [e] at l; linarith
  refine ⟨f1, ?_, by rw [e]; linarith⟩
  have : 2 / q * (q * (a ^ 2 + b ^ 2)) ≤ 2 / q * (a ^ 2 - 2 * r * a * b + b ^ 2) := by gcongr
  rw [← mul_assoc, div_mul_cancel₀ _ q0.ne'] at this
  rw [e]; linarith

/-- C277 (bivariate, part): for `|ρ| ≤ 1 - 2^-j` with `j ≤ 8` (`ρ` zero or of ordinary size), the density comes out to a relative `2^(j-39)` -/
theorem C277_bivariate_partial {d : BvNormal} {rho : F64} {r : ℝ} (h : BvNormal.new mu S rho = .ok d) (hm : ∀ i, (mu i).Is (m i)) (hS : ∀ i, (S i).Is (s i))
    (hr : rho.Is r) (j : ℕ) (hj : j ≤ 8) (hr1 : |r| ≤ 1 - 1 / 2 ^ j) (hr2 : r = 0 ∨ Ordinary |r|)
    (hs : ∀ i, Ordinary (s i)) {x : Fin 2 → F64} {t : Fin 2 → ℝ} (hx : ∀ i, (x i).Is (t i)) (ht : ∀ i, Ordinary |t i - m i|) :
    let C : Matrix (Fin 2) (Fin 2) ℝ := !![s 0, r * (√(s 0) * √(s 1)); r * (√(s 0) * √(s 1)), s 1]
    (t - m) ⬝ᵥ (C⁻¹ *ᵥ (t - m)) / 2 ≤ 64 →
    RelClose (d.pdf x) (Real.exp (-((t - m) ⬝ᵥ (C⁻¹ *ᵥ (t - m))) / 2) / (2 * Real.pi * √C.det)) (2 ^ j / 2 ^ 39) := by
  obtain ⟨-, -, -, rfl⟩ := BvNormal.new_ok.1 h
  intro C hz
  have p0 := (hs 0).pos; have p1 := (hs 1).pos
  have q0 := Real.sqrt_pos.2 p0; have q1 := Real.sqrt_pos.2 p1
  have j8 : (1:ℝ) / 2 ^ 8 ≤ 1 / 2 ^ j := one_div_le_one_div_of_le (by positivity) (pow_le_pow_right₀ (by norm_num) hj)
  have J : (2:ℝ) ^ j ≤ 2 ^ 8 := pow_le_pow_right₀ (by norm_num) hj
  have JN : 2 ^ j ≤ 2 ^ 8 := pow_le_pow_right₀ (by norm_num) hj
  have J1 : (1:ℝ) ≤ 2 ^ j := one_le_pow₀ (by norm_num)
  have JN1 : 1 ≤ 2 ^ j := Nat.one_le_two_pow
  have Jq : 2 / (1 / 2 ^ j : ℝ) = ((2 * 2 ^ j : ℕ) : ℝ) := by push_cast; field_simp
  have rb : r * r ≤ 1 - 1 / 2 ^ j := by
    rw [← abs_mul_abs_self]
    have : |r| * |r| ≤ |r| * 1 := by
      have : |r| ≤ 1 := hr1.trans (by linarith)
      gcongr
    linarith
  have rr : 0 < 1 - r * r := by linarith
  have hdet : C.det = s 0 * s 1 * (1 - r * r) := by
    have e0 := Real.sq_sqrt p0.le; have e1 := Real.sq_sqrt p1.le
    rw [Matrix.det_fin_two_of]
    calc s 0 * s 1 - r * (√(s 0) * √(s 1)) * (r * (√(s 0) * √(s 1))) = s 0 * s 1 - r * r * ((√(s 0)) ^ 2 * (√(s 1)) ^ 2) := by ring
      _ = _ := by rw [e0, e1]; ring
  have hzz : (t - m) ⬝ᵥ (C⁻¹ *ᵥ (t - m)) = ((t 0 - m 0) ^ 2 / s 0 - 2 * r * (t 0 - m 0) * (t 1 - m 1) / √(s 0) / √(s 1) +
        (t 1 - m 1) ^ 2 / s 1) / (1 - r * r) := by
    rw [Matrix.inv_def, Ring.inverse_eq_inv', hdet]
    have e0 := Real.sq_sqrt p0.le; have e1 := Real.sq_sqrt p1.le
    simp only [C, adjugate_fin_two_of, smul_mulVec, dotProduct_smul, smul_eq_mul]
    simp [Matrix.mulVec, dotProduct, Fin.sum_univ_two]
    generalize √(s 0) = a0 at *
    generalize √(s 1) = a1 at *
    rw [← e0, ← e1]
    have := rr.ne'
    field_simp
    ring
  rw [hzz] at hz ⊢
  have D := fun i => Rel.sub (k := 60) (hx i) (hm i) (ht i).1 (ht i).2 (by norm_num)
  have Q := fun i => (Rel.ord (hS i) (hs i)).sqrt (hs i).pos (by norm_num) (by norm_num)
  have T := fun i => (((D i).powi2 (by norm_num) (by norm_num)).div (Rel.ord (hS i) (hs i)) (by norm_num) (by norm_num)).mono
    (k' := 200) (n' := 9) (by norm_num) (by norm_num)
  -- the form in standardised coordinates
  have sq : ∀ i, (t i - m i) ^ 2 / s i = ((t i - m i) / √(s i)) ^ 2 := fun i => by rw [div_pow, Real.sq_sqrt (hs i).pos.le]
  have cr : 2 * r * (t 0 - m 0) * (t 1 - m 1) / √(s 0) / √(s 1) = 2 * r * ((t 0 - m 0) / √(s 0)) * ((t 1 - m 1) / √(s 1)) := by ring
  have low := (((D 0).powi2 (by norm_num) (by norm_num)).div (Rel.ord (hS 0) (hs 0)) (by norm_num) (by norm_num)).1
  have up := fun i => (((D i).powi2 (by norm_num) (by norm_num)).div (Rel.ord (hS i) (hs i)) (by norm_num) (by norm_num)).2.1
  have u0 := up 0; have u1 := up 1
  obtain ⟨f1, f2, f3⟩ := bv_form (a := (t 0 - m 0) / √(s 0)) (b := (t 1 - m 1) / √(s 1)) hr1 (by positivity)
  rw [Jq] at f2
  rw [← cr, ← sq 0, ← sq 1] at f1 f2 f3
  have n0 : 0 ≤ (t 0 - m 0) ^ 2 / s 0 := by positivity
  have n1 : 0 ≤ (t 1 - m 1) ^ 2 / s 1 := by positivity
  rw [abs_of_nonneg n0] at low u0
  rw [abs_of_nonneg n1] at u1
  have B : ∃ y, (2 * rho * (x 0 - mu 0) * (x 1 - mu 1) / (S 0).sqrt / (S 1).sqrt).Is y ∧
      |y - 2 * r * (t 0 - m 0) * (t 1 - m 1) / √(s 0) / √(s 1)| ≤ (9:ℕ) / 2 ^ 52 * |2 * r * (t 0 - m 0) * (t 1 - m 1) / √(s 0) / √(s 1)| := by
    rcases hr2 with h0 | ho
    · subst h0
      obtain ⟨-, -, a, ha, -⟩ := D 0
      obtain ⟨-, -, b, hb, -⟩ := D 1
      obtain ⟨g0, -, c, hc, ce⟩ := Q 0
      obtain ⟨g1, -, e, he, ee⟩ := Q 1
      have nz : ∀ {c q : ℝ}, 0 < q → |c - q| ≤ (1:ℕ) / 2 ^ 52 * |q| → c ≠ 0 := fun {c q} hq hc => by
        rw [abs_of_pos hq] at hc
        have := (abs_le.1 hc).1
        intro h0; rw [h0] at this; norm_num at this; linarith
      have z1 : (2 * rho : F64).Is 0 := round_zero_is.of_ext (by rw [mul_fin_ext (Is.num 2) hr, mul_zero])
      have z2 : (2 * rho * (x 0 - mu 0) : F64).Is 0 := round_zero_is.of_ext (by rw [mul_fin_ext z1 ha, zero_mul])
      have z3 : (2 * rho * (x 0 - mu 0) * (x 1 - mu 1) : F64).Is 0 := round_zero_is.of_ext (by rw [mul_fin_ext z2 hb, zero_mul])
      have z4 : (2 * rho * (x 0 - mu 0) * (x 1 - mu 1) / (S 0).sqrt : F64).Is 0 := round_zero_is.of_ext (by rw [div_fin_ext z3 hc (nz q0 ce), zero_div])
      have z5 : (2 * rho * (x 0 - mu 0) * (x 1 - mu 1) / (S 0).sqrt / (S 1).sqrt : F64).Is 0 := round_zero_is.of_ext (by rw [div_fin_ext z4 he (nz q1 ee), zero_div])
      exact ⟨0, z5, by simp⟩
    · have R0 : Rel rho r 60 0 := Rel.exact hr ho.1 ho.2
      have := ((((((Rel.num 2 (by norm_num)).mul R0 (by norm_num) (by norm_num)).mul (D 0) (by norm_num) (by norm_num)).mul (D 1)
        (by norm_num) (by norm_num)).div (Q 0) (by norm_num) (by norm_num)).div (Q 1) (by norm_num) (by norm_num)).2.2
      exact this
  have form0 : 0 < (t 0 - m 0) ^ 2 / s 0 - 2 * r * (t 0 - m 0) * (t 1 - m 1) / √(s 0) / √(s 1) + (t 1 - m 1) ^ 2 / s 1 := by
    have : (0:ℝ) < 1 / 2 ^ (7 + (60 + 60) + 60) := by positivity
    have : 0 < 1 / 2 ^ j * ((t 0 - m 0) ^ 2 / s 0 + (t 1 - m 1) ^ 2 / s 1) := mul_pos (by positivity) (by linarith)
    linarith
  have form1 : 1 / 2 ^ 8 * (1 / 2 ^ (7 + (60 + 60) + 60)) ≤ 1 / 2 ^ j * ((t 0 - m 0) ^ 2 / s 0 + (t 1 - m 1) ^ 2 / s 1) :=
    mul_le_mul j8 (by linarith) (by positivity) (by positivity)
  have F := Rel.sub_add_amp (k := 210) (2 * 2 ^ j) (T 0) B (T 1) (f3.trans (by norm_num at u0 u1 ⊢; linarith))
    (by rw [abs_of_pos form0]; refine le_trans ?_ (form1.trans f1); norm_num) (by
      rw [abs_of_pos form0]
      have := neg_abs_le (2 * r * (t 0 - m 0) * (t 1 - m 1) / √(s 0) / √(s 1))
      norm_num at u0 u1 ⊢; linarith) (by rw [abs_of_pos form0, abs_of_nonneg n0, abs_of_nonneg n1]; exact f2)
    (by norm_num) (by norm_num) (by omega) (by omega)
  have W : Rel (1 - rho * rho) (1 - r * r) 8 (2 * 2 ^ j * 1 + 1) := by
    rcases hr2 with h0 | ho
    · subst h0
      have z1 : (rho * rho : F64).Is 0 := round_zero_is.of_ext (by rw [mul_fin_ext hr hr, mul_zero])
      exact ((Rel.sub (k := 8) Is.one z1 (by norm_num) (by norm_num) (by norm_num)).congr (by ring)).mono le_rfl (by omega)
    · have R0 : Rel rho r 60 0 := Rel.exact hr ho.1 ho.2
      have R2 := R0.mul R0 (by norm_num) (by norm_num)
      refine Rel.sub_amp (2 * 2 ^ j) (Rel.one.mono (by norm_num) (by norm_num)) R2 ?_ ?_ ?_ (by norm_num) (by omega)
      · rw [abs_of_pos rr]; linarith
      · rw [abs_of_pos rr]; norm_num; linarith [mul_self_nonneg r]
      · rw [abs_of_pos rr, abs_one, abs_of_nonneg (mul_self_nonneg r)]
        have h1 : ((2 * 2 ^ j : ℕ) : ℝ) * (1 / 2 ^ j) ≤ (2 * 2 ^ j : ℕ) * (1 - r * r) := by gcongr; linarith
        rw [← Jq, div_mul_cancel₀ _ (by positivity)] at h1
        rw [← Jq]
        have : 0 < (1:ℝ) / 2 ^ j := by positivity
        linarith
  have Z := F.div W (by norm_num) (by omega)
  have E := (Z.neg.div (Rel.num 2 (by norm_num)) (by norm_num) (by omega)).exp 64 (by
    rw [neg_div, abs_neg, abs_of_pos (by positivity)]; exact_mod_cast hz) (by norm_num) (by omega)
  have P2 : Rel PI_2 (Real.pi * 2) 9 2 := Rel.pi.mul (Rel.num 2 (by norm_num)) (by norm_num) (by norm_num)
  have N := ((P2.mul (Q 0) (by norm_num) (by norm_num)).mul (Q 1) (by norm_num) (by norm_num)).mul (W.sqrt rr (by norm_num) (by omega)) (by norm_num) (by omega)
  obtain ⟨-, -, y, hy, he⟩ := E.div N (by norm_num) (by omega)
  rw [hdet, Real.sqrt_mul (by positivity), Real.sqrt_mul (by positivity), mul_comm 2 Real.pi, ← mul_assoc, ← mul_assoc]
  exact ⟨y, hy, he.trans (mul_le_mul_of_nonneg_right (by push_cast; linarith) (abs_nonneg _))⟩

end

/-! ### near-perfect correlation, in binary64 -/
section
open B64
attribute [local instance] binary64 binary64_lawful B64.libm B64.specialFns B64.accurate

/-- a rounding with a small known value -/
theorem bv_val {x v : ℝ} (h : rnd x = v) (hv : |v| ≤ 2 ^ 10) : (F64.round x).Is v := by
  have : (F64.round x).Is (FP.rnd x) := round_is (FP.Lawful.not_huge _ (by
    rw [show FP.rnd x = v from h]; exact hv.trans (pow_le_pow_right₀ (by norm_num) (by norm_num))))
  rwa [show FP.rnd x = v from h] at this

/-- a sum with a known rounding -/
theorem bv_add {a b : F64} {r s v : ℝ} (ha : a.Is r) (hb : b.Is s) (h : rnd (r + s) = v) (hv : |v| ≤ 2 ^ 10) : (a + b).Is v :=
  (bv_val h hv).of_ext (add_ext ha hb).symm
/-- a difference with a known rounding -/
theorem bv_sub {a b : F64} {r s v : ℝ} (ha : a.Is r) (hb : b.Is s) (h : rnd (r - s) = v) (hv : |v| ≤ 2 ^ 10) : (a - b).Is v :=
  (bv_val h hv).of_ext (add_ext ha hb.neg).symm
/-- a product with a known rounding -/
theorem bv_mul {a b : F64} {r s v : ℝ} (ha : a.Is r) (hb : b.Is s) (h : rnd (r * s) = v) (hv : |v| ≤ 2 ^ 10) : (a * b).Is v :=
  (bv_val h hv).of_ext (mul_fin_ext ha hb).symm
/-- a quotient with a known rounding -/
theorem bv_div {a b : F64} {r s v : ℝ} (ha : a.Is r) (hb : b.Is s) (hs : s ≠ 0) (h : rnd (r / s) = v) (hv : |v| ≤ 2 ^ 10) : (a / b).Is v :=
  (bv_val h hv).of_ext (div_fin_ext ha hb hs).symm

/-- a dyadic rational rounds to itself -/
theorem bv_exact {x : ℝ} (m e : ℤ) (h : x = m * 2 ^ e) (hm : |m| ≤ 2 ^ 53) (he : -1074 ≤ e) : rnd x = x := by
  rw [h]; exact rnd_repr m e hm he

/-- C277 in binary64: with correlation `1 - 2^-53`, zero means and unit variances, at the point `(3, 3)` the quadratic form comes out as exactly 16, where
its real value is less than 10, and the density has lost all accuracy: the numerator and the denominator of `z` both cancel -/
theorem C277_bivariate_violated : ∃ d, BvNormal.new (fun _ => fin 0) (fun _ => fin 1) (fin (1 - 1 / 2 ^ 53)) = .ok d ∧
    let r : ℝ := 1 - 1 / 2 ^ 53
    let C : Matrix (Fin 2) (Fin 2) ℝ := !![1, r; r, 1]
    let t : Fin 2 → ℝ := fun _ => 3
    (d.z (fun _ => fin 3)).Is 16 ∧ t ⬝ᵥ (C⁻¹ *ᵥ t) < 10 ∧
    0 < C.det ∧ ¬ RelClose (d.pdf (fun _ => fin 3)) (Real.exp (-(t ⬝ᵥ (C⁻¹ *ᵥ t)) / 2) / (2 * Real.pi * √C.det)) (1 / 2) := by
  refine ⟨_, BvNormal.new_ok.2 ⟨fun _ => lt_of_pos (by norm_num) (.fin _), fin_le_fin.2 (by norm_num), fin_le_fin.2 (by norm_num), rfl⟩, ?_⟩
  intro r C t
  have hdet : C.det = 1 - r * r := by rw [Matrix.det_fin_two_of]; ring
  have rr : 0 < 1 - r * r := by norm_num [r]
  have hq : t ⬝ᵥ (C⁻¹ *ᵥ t) = 18 / (1 + r) := by
    rw [Matrix.inv_def, Ring.inverse_eq_inv', hdet]
    simp only [C, adjugate_fin_two_of, smul_mulVec, dotProduct_smul, smul_eq_mul]
    simp [t, Matrix.mulVec, dotProduct, Fin.sum_univ_two]
    have h1 : 1 + r ≠ 0 := by norm_num [r]
    have h2 : 1 - r ≠ 0 := by norm_num [r]
    have h3 : 1 - r * r ≠ 0 := rr.ne'
    rw [show 1 - r * r = (1 - r) * (1 + r) by ring]
    field_simp
    ring
  have hq10 : 18 / (1 + r) < 10 := by norm_num [r]
  have one : (1 : F64).Is 1 := Is.one
  have f1 : (fin 1 : F64).Is 1 := .fin _
  have s1 : (fin 1 : F64).sqrt.Is 1 := by
    have e : (fin 1 : F64).sqrt = F64.round (√1) := by
      unfold F64.sqrt; simp
    rw [e, Real.sqrt_one]
    exact bv_val (bv_exact 1 0 (by norm_num) (by norm_num) (by norm_num)) (by norm_num)
  have hd : (fin 3 - fin 0 : F64).Is 3 := bv_sub (.fin _) (.fin _) ((bv_exact 3 0 (by norm_num) (by norm_num) (by norm_num)).trans (by norm_num)) (by norm_num)
  have hp : ((fin 3 - fin 0 : F64).powi 2).Is 9 := by
    have e : (fin 3 - fin 0 : F64).powi 2 = 1 * ((fin 3 - fin 0) * (fin 3 - fin 0)) := by
      simp [powi, powiLoop]
      rfl
    rw [e]
    exact bv_mul one (bv_mul (v := 9) hd hd ((bv_exact 9 0 (by norm_num) (by norm_num) (by norm_num)).trans (by norm_num)) (by norm_num))
      ((bv_exact 9 0 (by norm_num) (by norm_num) (by norm_num)).trans (by norm_num)) (by norm_num)
  have hA : ((fin 3 - fin 0 : F64).powi 2 / fin 1).Is 9 := bv_div hp f1 one_ne_zero ((bv_exact 9 0 (by norm_num) (by norm_num) (by norm_num)).trans (by norm_num)) (by norm_num)
  have hr : (fin (1 - 1 / 2 ^ 53) : F64).Is r := .fin _
  have b1 : (2 * fin (1 - 1 / 2 ^ 53) : F64).Is (2 - 1 / 2 ^ 52) := bv_mul (Is.num 2) hr
    ((bv_exact (2 ^ 53 - 1) (-52) (by norm_num [r]) (by norm_num) (by norm_num)).trans (by norm_num [r])) (by norm_num [abs_of_pos])
  have b2 : (2 * fin (1 - 1 / 2 ^ 53) * (fin 3 - fin 0) : F64).Is (6 - 1 / 2 ^ 50) := bv_mul b1 hd
    ((rnd_eq (6 * 2 ^ 50 - 1) (-50) (by norm_num) (by norm_num) (by norm_num) (by norm_num [abs_lt])).trans (by norm_num)) (by norm_num [abs_of_pos])
  have b3 : (2 * fin (1 - 1 / 2 ^ 53) * (fin 3 - fin 0) * (fin 3 - fin 0) : F64).Is (18 - 1 / 2 ^ 48) := bv_mul b2 hd
    ((rnd_eq (18 * 2 ^ 48 - 1) (-48) (by norm_num) (by norm_num) (by norm_num) (by norm_num [abs_lt])).trans (by norm_num)) (by norm_num [abs_of_pos])
  have ex : rnd ((18 - 1 / 2 ^ 48) / 1) = 18 - 1 / 2 ^ 48 :=
    (bv_exact (18 * 2 ^ 48 - 1) (-48) (by norm_num) (by norm_num) (by norm_num)).trans (by norm_num)
  have b5 := bv_div (bv_div b3 s1 one_ne_zero ex (by norm_num [abs_of_pos])) s1 one_ne_zero ex (by norm_num [abs_of_pos])
  have c1 := bv_sub (v := -9 + 1 / 2 ^ 48) hA b5 ((bv_exact (-9 * 2 ^ 48 + 1) (-48) (by norm_num) (by norm_num) (by norm_num)).trans (by norm_num)) (by norm_num [abs_le])
  have c2 := bv_add (v := 1 / 2 ^ 48) c1 hA ((bv_exact 1 (-48) (by norm_num) (by norm_num) (by norm_num)).trans (by norm_num)) (by norm_num [abs_le])
  have w1 : (fin (1 - 1 / 2 ^ 53) * fin (1 - 1 / 2 ^ 53) : F64).Is (1 - 1 / 2 ^ 52) := bv_mul hr hr
    ((rnd_eq (2 ^ 53 - 2) (-53) (by norm_num) (by norm_num [r]) (by norm_num [r]) (by norm_num [abs_lt, r])).trans (by norm_num)) (by norm_num [abs_of_pos])
  have w2 : (1 - fin (1 - 1 / 2 ^ 53) * fin (1 - 1 / 2 ^ 53) : F64).Is (1 / 2 ^ 52) := bv_sub one w1
    ((bv_exact 1 (-52) (by norm_num) (by norm_num) (by norm_num)).trans (by norm_num)) (by norm_num [abs_of_pos])
  have z : (BvNormal.z ⟨fun _ => fin 0, fun _ => fin 1, fin (1 - 1 / 2 ^ 53)⟩ (fun _ => fin 3)).Is 16 :=
    bv_div c2 w2 (by positivity) ((bv_exact 16 0 (by norm_num) (by norm_num) (by norm_num)).trans (by norm_num)) (by norm_num)
  refine ⟨z, by rw [hq]; exact hq10, by rw [hdet]; exact rr, ?_⟩
  have Z : Rel (BvNormal.z ⟨fun _ => fin 0, fun _ => fin 1, fin (1 - 1 / 2 ^ 53)⟩ (fun _ => fin 3)) 16 7 0 := Rel.exact z (by norm_num) (by norm_num)
  have E := (Z.neg.div (Rel.num 2 (by norm_num)) (by norm_num) (by norm_num)).exp 8 (by norm_num) (by norm_num) (by norm_num)
  have P2 : Rel PI_2 (Real.pi * 2) 9 2 := Rel.pi.mul (Rel.num 2 (by norm_num)) (by norm_num) (by norm_num)
  have S1 : Rel (fin 1 : F64).sqrt 1 1 0 := Rel.exact s1 (by norm_num) (by norm_num)
  have W := (Rel.exact (k := 60) w2 (by norm_num) (by norm_num)).sqrt (by norm_num) (by norm_num) (by norm_num)
  have N := ((P2.mul S1 (by norm_num) (by norm_num)).mul S1 (by norm_num) (by norm_num)).mul W (by norm_num) (by norm_num)
  obtain ⟨-, -, y, hy, he⟩ := E.div N (by norm_num) (by norm_num)
  rintro ⟨p, hp', hpe⟩
  have hy' : (BvNormal.pdf ⟨fun _ => fin 0, fun _ => fin 1, fin (1 - 1 / 2 ^ 53)⟩ (fun _ => fin 3)).Is y := hy
  obtain rfl := is_uniq hy' hp'
  rw [hq, hdet] at hpe
  have sd : √(1 / 2 ^ 52 : ℝ) = 1 / 2 ^ 26 := by
    rw [show (1 / 2 ^ 52 : ℝ) = (1 / 2 ^ 26) ^ 2 by norm_num, Real.sqrt_sq (by norm_num)]
  rw [sd] at he
  have sd' : √(1 - r * r) ≤ 1 / 2 ^ 26 := Real.sqrt_le_iff.2 ⟨by norm_num, by norm_num [r]⟩
  have pp := Real.pi_pos
  have sp := Real.sqrt_pos.2 rr
  -- the true density is at least `e^-5` over the larger constant
  have lo : Real.exp (-5) / (2 * Real.pi * (1 / 2 ^ 26)) ≤ Real.exp (-(18 / (1 + r)) / 2) / (2 * Real.pi * √(1 - r * r)) := by
    have : Real.exp (-5) ≤ Real.exp (-(18 / (1 + r)) / 2) := Real.exp_le_exp.2 (by linarith)
    gcongr
  have f0 : 0 < Real.exp (-(18 / (1 + r)) / 2) / (2 * Real.pi * √(1 - r * r)) := by positivity
  rw [abs_of_pos f0] at hpe
  have h8 : Real.exp (-8) ≤ 1 / 8 * Real.exp (-5) := by
    rw [show (-8:ℝ) = -3 + -5 by norm_num, Real.exp_add]
    have e3 : (8:ℝ) ≤ Real.exp 3 := by
      have := Real.exp_one_gt_d9
      calc (8:ℝ) ≤ Real.exp 1 ^ 3 := by nlinarith [mul_pos (Real.exp_pos 1) (Real.exp_pos 1)]
        _ = Real.exp 3 := by rw [← Real.exp_nat_mul]; norm_num
    have : Real.exp (-3) ≤ 1 / 8 := by
      rw [Real.exp_neg, ← one_div]
      exact one_div_le_one_div_of_le (by norm_num) e3
    have := Real.exp_pos (-5)
    gcongr
  have eN : Real.exp (-16 / OfNat.ofNat 2) / (Real.pi * 2 * 1 * 1 * (1 / 2 ^ 26)) = Real.exp (-8) / (2 * Real.pi * (1 / 2 ^ 26)) := by
    rw [show (-16 / OfNat.ofNat 2 : ℝ) = -8 by norm_num, mul_one, mul_one, mul_comm Real.pi 2]
  rw [eN] at he
  have g : Real.exp (-8) / (2 * Real.pi * (1 / 2 ^ 26)) ≤ 1 / 8 * (Real.exp (-5) / (2 * Real.pi * (1 / 2 ^ 26))) := by
    exact (div_le_div_of_nonneg_right h8 (by positivity)).trans_eq (by ring)
  have g0 : 0 < Real.exp (-8) / (2 * Real.pi * (1 / 2 ^ 26)) := by positivity
  rw [abs_of_pos g0] at he
  have a1 := (abs_le.1 he).2
  have a2 := (abs_le.1 hpe).1
  generalize Real.exp (-8) / (2 * Real.pi * (1 / 2 ^ 26)) = u at *
  generalize Real.exp (-5) / (2 * Real.pi * (1 / 2 ^ 26)) = v at *
  norm_num at a1
  linarith

end

/-! ### the hypotheses are met -/
section
open B64
attribute [local instance] binary64 binary64_lawful B64.libm B64.specialFns B64.accurate

example : ∃ d, BvNormal.new (fun _ => fin 0) (fun _ => fin 1) (fin (1 / 2)) = .ok d ∧
    ∃ p : ℝ, 0 < p ∧ RelClose (d.pdf (fun _ => fin 1)) p (2 ^ 1 / 2 ^ 39) := by
  have hd : BvNormal.new (fun _ => fin 0) (fun _ => fin 1) (fin (1 / 2)) = .ok ⟨fun _ => fin 0, fun _ => fin 1, fin (1 / 2)⟩ :=
    BvNormal.new_ok.2 ⟨fun _ => lt_of_pos (by norm_num) (.fin _), fin_le_fin.2 (by norm_num), fin_le_fin.2 (by norm_num), rfl⟩
  refine ⟨_, hd, _, ?_, C277_bivariate_partial (m := fun _ => 0) (s := fun _ => 1) (t := fun _ => 1) hd (fun _ => .fin _) (fun _ => .fin _) (.fin _)
    1 (by norm_num) (by norm_num [abs_of_pos]) (Or.inr (by norm_num [Ordinary, abs_of_pos])) (fun _ => by norm_num [Ordinary]) (fun _ => .fin _)
    (fun _ => by norm_num [Ordinary]) ?_⟩
  · refine div_pos (Real.exp_pos _) (mul_pos (by positivity) (Real.sqrt_pos.2 ?_))
    rw [Matrix.det_fin_two_of]; norm_num
  · rw [Matrix.inv_def, Matrix.adjugate_fin_two_of, Matrix.det_fin_two_of]
    simp [Matrix.mulVec, dotProduct, Fin.sum_univ_two, Ring.inverse_eq_inv']
    norm_num

example : ∃ d, PairedNormal.new (fun _ => fin 0) (fun _ => fin 1) = .ok d ∧ ∃ p : ℝ, RelClose (d.pdf (fun _ => fin 1)) p (1 / 2 ^ 42) := by
  have hd : PairedNormal.new (fun _ => fin 0) (fun _ => fin 1) = .ok ⟨fun _ => fin 0, fun _ => fin 1⟩ :=
    PairedNormal.new_ok.2 ⟨fun _ => lt_of_pos (by norm_num) (.fin _), rfl⟩
  exact ⟨_, hd, _, C277_paired_partial (m := fun _ => 0) (s := fun _ => 1) (t := fun _ => 1) hd (fun _ => .fin _) (fun _ => .fin _)
    (fun _ => by norm_num [Ordinary]) (fun _ => .fin _) (fun _ => by norm_num [Ordinary]) (by norm_num)⟩
end
end Rstat
