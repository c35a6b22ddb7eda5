import Verif.Props.FloatDensity
import Verif.Props.FloatAccuracy3
import Verif.Props.FloatPdf2
import Verif.Props.Dist.Uniform

/-! C253: normal and folded normal densities; counterexamples in binary64 and instances. -/
set_option linter.unusedSectionVars false
namespace Rstat
open F64 Spec Consts

section
variable [FP] [FP.Lawful] [FP.Accurate] [FP.Libm]

theorem f64_neg_neg (a : F64) : - -a = a := by
  cases a with
  | fin r =>
    change F64.neg (F64.neg (fin r)) = fin r
    by_cases h : r = 0 <;> simp [F64.neg, h]
  | negZero => change F64.neg (F64.neg negZero) = _; simp [F64.neg]
  | _ => rfl

theorem sqrt_is {b : F64} {v : ℝ} (hb : b.Is v) (hv : 0 < v) (nh : ¬ FP.huge (FP.rnd (√v))) : b.sqrt.Is (FP.rnd (√v)) := by
  rw [hb.eq_fin hv.ne']
  unfold F64.sqrt
  dsimp only
  rw [if_neg (not_lt.2 hv.le)]
  exact round_is nh

theorem sqrt_pert {P p η : ℝ} (hp : 0 < p) (hP : 0 ≤ P) (h : |P - p| ≤ η * p) : |√P - √p| ≤ η * √p := by
  have sp := Real.sqrt_pos.2 hp
  have sP := Real.sqrt_nonneg P
  have e : (√P - √p) * (√P + √p) = P - p := by
    have := Real.mul_self_sqrt hp.le; have := Real.mul_self_sqrt hP; linarith
  have h1 : |√P - √p| * (√P + √p) = |P - p| := by rw [← e, abs_mul, abs_of_pos (show 0 < √P + √p by linarith)]
  have h2 : |√P - √p| * √p ≤ |√P - √p| * (√P + √p) := by gcongr; linarith
  have h3 : |√P - √p| * √p ≤ η * √p * √p := by
    rw [mul_assoc, Real.mul_self_sqrt hp.le]; linarith
  exact le_of_mul_le_mul_right h3 sp

/-- the constant `√(2π)` -/
theorem sqrt_two_pi_near : ∃ A, PI_2.sqrt.Is A ∧ |A - √(2 * Real.pi)| ≤ 1 / 2 ^ 50 * √(2 * Real.pi) := by
  have h3 := Real.pi_gt_three
  have h4 := Real.pi_le_four
  obtain ⟨P, hP, hPe⟩ := round_near (y := Real.pi) (by
    rw [abs_of_pos Real.pi_pos]
    calc Real.pi ≤ 2 ^ 2 := by linarith
      _ ≤ 2 ^ 1020 := pow_le_pow_right₀ (by norm_num) (by norm_num))
  have ti := Within.tiny
  rw [abs_of_pos Real.pi_pos] at hPe
  have hP3 : P ≤ 5 := by
    have := (abs_le.1 hPe).2
    generalize (1:ℝ) / 2 ^ 1075 = τ at *
    linarith only [this, ti, h4]
  have hP0 : 2 ≤ P := by
    have := (abs_le.1 hPe).1
    generalize (1:ℝ) / 2 ^ 1075 = τ at *
    linarith only [this, ti, h3, h4]
  have h10 : |P * 2| ≤ 2 ^ 1020 := by
    rw [abs_of_pos (by linarith)]
    calc P * 2 ≤ 2 ^ 4 := by linarith
      _ ≤ 2 ^ 1020 := pow_le_pow_right₀ (by norm_num) (by norm_num)
  have nh2 : ¬ FP.huge (FP.rnd (P * 2)) := fun hh => by
    have h1 := huge_big hh
    have h2 : |P * 2| < 2 ^ 1022 := lt_of_le_of_lt h10 (pow_lt_pow_right₀ (by norm_num) (by norm_num))
    exact absurd h1 (not_le.2 h2)
  have hP2 : PI_2.Is (FP.rnd (P * 2)) := mul_is (show PI.Is P from hP) (Is.fin 2) nh2
  have e2 := FP.Lawful.rnd_err (P * 2)
  rw [abs_of_pos (by linarith : 0 < P * 2)] at e2
  set Q := FP.rnd (P * 2)
  have hQ : |Q - 2 * Real.pi| ≤ 1 / 2 ^ 51 * (2 * Real.pi) := by
    have := abs_sub_le Q (P * 2) (2 * Real.pi)
    rw [show P * 2 - 2 * Real.pi = 2 * (P - Real.pi) by ring, abs_mul, abs_of_pos (by norm_num : (0:ℝ) < 2)] at this
    have hPu := (abs_le.1 hPe).2
    generalize (1:ℝ) / 2 ^ 1075 = τ at *
    linarith only [this, e2, hPe, hPu, ti, h3]
  have Q0 : 0 < Q := by have := (abs_le.1 hQ).1; linarith only [this, h3]
  have Q1 : Q ≤ 16 := by have := (abs_le.1 hQ).2; linarith only [this, h4]
  have hq := sqrt_pert (by linarith : 0 < 2 * Real.pi) Q0.le hQ
  have acc := FP.Accurate.sqrt_acc Q (FP.Lawful.rnd_idem _) Q0.le
  refine ⟨_, sqrt_is hP2 Q0 (fun hh => ?_), ?_⟩
  · have h1 := huge_big hh
    have h2 : √Q ≤ 4 := by rw [show (4:ℝ) = √16 by rw [show (16:ℝ) = 4 ^ 2 by norm_num]; simp]; exact Real.sqrt_le_sqrt Q1
    rw [abs_of_nonneg (Real.sqrt_nonneg _)] at h1
    have h3 : (4:ℝ) < 2 ^ 1022 := by
      calc (4:ℝ) < 2 ^ 3 := by norm_num
        _ ≤ 2 ^ 1022 := pow_le_pow_right₀ (by norm_num) (by norm_num)
    exact absurd (h1.trans h2) (not_le.2 h3)
  · have := abs_sub_le (FP.rnd (√Q)) (√Q) (√(2 * Real.pi))
    have hu := (abs_le.1 hq).2
    have := Real.sqrt_nonneg (2 * Real.pi)
    linarith only [acc, hq, hu, this, ‹|FP.rnd (√Q) - √(2 * Real.pi)| ≤ _›]

theorem two_pi_bounds : 2 ≤ √(2 * Real.pi) ∧ √(2 * Real.pi) ≤ 4 := by
  have h3 := Real.pi_gt_three
  have h4 := Real.pi_le_four
  constructor
  · exact Real.le_sqrt_of_sq_le (by linarith)
  · exact Real.sqrt_le_iff.2 ⟨by norm_num, by linarith⟩

/-- the normalising constant `√(2π) σ` for an inexact `σ` -/
theorem norm_const {b : F64} {S s : ℝ} (hb : b.Is S) (hs : Moderate s) (hS : |S - s| ≤ 1 / 2 ^ 53 * s) :
    ∃ N, (PI_2.sqrt * b).Is N ∧ |N - √(2 * Real.pi) * s| ≤ 1 / 2 ^ 48 * (√(2 * Real.pi) * s) := by
  obtain ⟨A, hA, hAe⟩ := sqrt_two_pi_near
  obtain ⟨p2, p4⟩ := two_pi_bounds
  have sp := hs.pos
  set p := √(2 * Real.pi)
  have hS2 : |S| ≤ 2 * s := by
    have := abs_add_le (S - s) s
    rw [sub_add_cancel, abs_of_pos sp] at this
    linarith only [this, hS, sp]
  have hprod : |A * S - p * s| ≤ 3 / 2 ^ 50 * (p * s) := by
    rw [show A * S - p * s = (A - p) * S + p * (S - s) by ring]
    refine (abs_add_le _ _).trans ?_
    rw [abs_mul, abs_mul p, abs_of_pos (by linarith : 0 < p)]
    have a1 : |A - p| * |S| ≤ (1 / 2 ^ 50 * p) * (2 * s) := by gcongr
    have a2 : p * |S - s| ≤ p * (1 / 2 ^ 53 * s) := by gcongr
    have : 0 < p * s := by positivity
    linarith only [a1, a2, this]
  have ps : 0 < p * s := by positivity
  have hAS : |A * S| ≤ 2 * (p * s) := by
    have := abs_add_le (A * S - p * s) (p * s)
    rw [sub_add_cancel, abs_of_pos ps] at this
    linarith only [this, hprod, ps]
  obtain ⟨N, hN, hNe⟩ := round_near (y := A * S) (by
    refine hAS.trans ?_
    calc 2 * (p * s) ≤ 2 * (4 * 2 ^ 500) := by have := hs.2; gcongr
      _ = 2 ^ 503 := by rw [show (503:ℕ) = 3 + 500 by norm_num, pow_add]; ring
      _ ≤ 2 ^ 1020 := pow_le_pow_right₀ (by norm_num) (by norm_num))
  refine ⟨N, hN.of_ext (mul_fin_ext hA hb).symm, ?_⟩
  have t2 := tiny_scale hs.lo
  have := abs_sub_le N (A * S) (p * s)
  have : 2 * s ≤ p * s := by gcongr
  generalize (1:ℝ) / 2 ^ 1075 = τ at *
  linarith only [‹|N - p * s| ≤ _›, hprod, hNe, hAS, t2, this, sp]

/-- the Gaussian term `exp(-z*z/2) / (√(2π) σ)` -/
theorem gauss_term {c b : F64} {S s z z' : ℝ} (hz : Zed c z') (hzz : |z' - z| ≤ |z| / 2 ^ 51 + 1 / 2 ^ 120) (hb : b.Is S) (hs : Moderate s)
    (hS : |S - s| ≤ 1 / 2 ^ 53 * s) :
    Within ((-c * c / 2).exp / (PI_2.sqrt * b)) (Real.exp (-(z ^ 2 / 2)) / (√(2 * Real.pi) * s)) (1 / s * (1 / 2 ^ 45)) := by
  have hw := zed_gauss hz
  have hm := mvt_rel gss_deriv hzz (fun x _ => gss_C x) (fun x _ => gss_D x)
  have hw2 : Within ((-c * c / 2).exp) (Real.exp (-(z ^ 2 / 2))) (1 / 2 ^ 46) := hw.shift (by linarith only [hm])
  obtain ⟨N, hN, hNe⟩ := norm_const hb hs hS
  obtain ⟨p2, p4⟩ := two_pi_bounds
  have sp := hs.pos
  have e1 : Real.exp (-(z ^ 2 / 2)) ≤ 1 := Real.exp_le_one_iff.2 (by have := sq_nonneg z; linarith)
  have := hw2.div_near (by rwa [abs_of_pos (Real.exp_pos _)]) (by norm_num) hN (by norm_num) (by norm_num) hNe (by
    calc (1:ℝ) / 2 ^ 899 ≤ 1 * (1 / 2 ^ 500) := by
          rw [one_mul]; exact one_div_le_one_div_of_le (by positivity) (pow_le_pow_right₀ (by norm_num) (by norm_num))
      _ ≤ _ := by have := hs.1; gcongr; linarith) (by
    calc √(2 * Real.pi) * s ≤ 4 * 2 ^ 500 := by have := hs.2; gcongr
      _ = 2 ^ 502 := by rw [show (502:ℕ) = 2 + 500 by norm_num, pow_add]; ring
      _ ≤ 2 ^ 899 := pow_le_pow_right₀ (by norm_num) (by norm_num))
  refine this.mono ?_
  have hi : 1 / (√(2 * Real.pi) * s) ≤ 1 / s * (1 / 2) := by
    rw [mul_comm, ← one_div_mul_one_div]
    gcongr
  have kp := hs.inv.pos
  calc (2 * (1 / 2 ^ 46) + 1 / 2 ^ 50 + 2 * (1 / 2 ^ 48)) / (√(2 * Real.pi) * s)
      = (2 * (1 / 2 ^ 46) + 1 / 2 ^ 50 + 2 * (1 / 2 ^ 48)) * (1 / (√(2 * Real.pi) * s)) := by rw [div_eq_mul_one_div]
    _ ≤ (2 * (1 / 2 ^ 46) + 1 / 2 ^ 50 + 2 * (1 / 2 ^ 48)) * (1 / s * (1 / 2)) := by gcongr
    _ ≤ 1 / s * (1 / 2 ^ 45) := by generalize 1 / s = k at *; linarith

theorem gaussian_as_term {m v : ℝ} (hv : 0 < v) (r : ℝ) :
    ProbabilityTheory.gaussianPDFReal m v.toNNReal r = Real.exp (-(((r - m) / √v) ^ 2 / 2)) / (√(2 * Real.pi) * √v) := by
  unfold ProbabilityTheory.gaussianPDFReal
  rw [Real.coe_toNNReal _ hv.le, Real.sqrt_mul (by positivity), div_pow, Real.sq_sqrt hv.le, div_eq_inv_mul (Real.exp _)]
  have e : -(r - m) ^ 2 / (2 * v) = -((r - m) ^ 2 / v / 2) := by field_simp
  rw [e]

/-- C253: the normal density (second parameter: the variance) is within 2^-45/σ of the real one at every f64 -/
theorem C253_normal {a b : F64} {m v : ℝ} {d : UvNormal} (h : UvNormal.new a b = .ok d) (fa : IsF64 a) (ha : a.Is m)
    (fb : IsF64 b) (hb : b.Is v) (hs : Moderate (√v)) :
    AccuratePDF d.pdf (ProbabilityTheory.gaussianPDFReal m v.toNNReal) Set.univ (1 / √v * (1 / 2 ^ 45)) := by
  obtain ⟨h0, rfl⟩ := UvNormal.new_ok.1 h
  intro x r fx hx _
  have hv := pos_of_lt h0 hb
  have acc := FP.Accurate.sqrt_acc v (fb v hb).1 hv.le
  have sv : 0 < √v := hs.pos
  have hS2 : FP.rnd (√v) ≤ 2 * √v := by have := (abs_le.1 acc).2; linarith only [this, sv]
  have hS : 0 < FP.rnd (√v) := by have := (abs_le.1 acc).1; linarith only [this, sv]
  have s501 : FP.rnd (√v) ≤ 2 ^ 501 := by
    have p : (2:ℝ) ^ 501 = 2 * 2 ^ 500 := by rw [pow_succ, mul_comm]
    rw [p]; have := hs.2
    generalize (2:ℝ) ^ 500 = M at *
    linarith only [this, hS2]
  have hbS := sqrt_is hb hv (fun hh => FP.Lawful.not_huge _ (by
    rw [abs_of_pos hS]; exact s501.trans (pow_le_pow_right₀ (by norm_num) (by norm_num))) hh)
  set S := FP.rnd (√v)
  have hz := zscore_all hx ha hbS hS s501 (fx r hx).1 (fa m ha).1
  have h2 : |(r - m) / S - (r - m) / √v| ≤ |(r - m) / √v| / 2 ^ 51 + 1 / 2 ^ 120 := by
    have e : (r - m) / S - (r - m) / √v = (r - m) / √v * ((√v - S) / S) := by field_simp
    rw [e, abs_mul, abs_div (√v - S), abs_of_pos hS, abs_sub_comm]
    have h3 : |S - √v| / S ≤ 1 / 2 ^ 51 := by
      rw [div_le_iff₀ hS]
      refine acc.trans ?_
      have := (abs_le.1 acc).1
      linarith only [this, sv]
    have h4 := mul_le_mul_of_nonneg_left h3 (abs_nonneg ((r - m) / √v))
    rw [mul_one_div] at h4
    have : (0:ℝ) ≤ 1 / 2 ^ 120 := by positivity
    linarith only [h4, this]
  rw [gaussian_as_term hv]
  exact gauss_term hz h2 hbS hs (by linarith only [acc])

/-- C253: the folded normal density is within 2^-43/σ of the real one at every non-negative f64 -/
theorem C253_folded_normal {a b : F64} {m s : ℝ} {d : FoldedNormal} (h : FoldedNormal.new a b = .ok d) (fa : IsF64 a) (ha : a.Is m)
    (hb : b.Is s) (hs : Moderate s) : AccuratePDF d.pdf (foldedPDF m s) (Set.Ici 0) (1 / s * (1 / 2 ^ 43)) := by
  obtain ⟨h0, rfl⟩ := FoldedNormal.new_ok.1 h
  intro x r fx hx hr
  have hr : 0 ≤ r := hr
  have sp := hs.pos
  have kp := hs.inv.pos
  have s501 : s ≤ 2 ^ 501 := hs.2.trans (pow_le_pow_right₀ (by norm_num) (by norm_num))
  have hneg := hx.neg
  have rn : FP.rnd (-m) = -m := by rw [FP.Lawful.rnd_neg, (fa m ha).1]
  have z1 := zscore_all hx ha.neg hb sp s501 (fx r hx).1 rn
  have z2 := zscore_all hx ha hb sp s501 (fx r hx).1 (fa m ha).1
  rw [show x - -a = x + a by change x + - -a = _; rw [f64_neg_neg]] at z1
  have ez : ∀ z : ℝ, |z - z| ≤ |z| / 2 ^ 51 + 1 / 2 ^ 120 := fun z => by rw [sub_self, abs_zero]; positivity
  have hss : |s - s| ≤ 1 / 2 ^ 53 * s := by rw [sub_self, abs_zero]; positivity
  have g1 := gauss_term z1 (ez _) hb hs hss
  have g2 := gauss_term z2 (ez _) hb hs hss
  have e : foldedPDF m s r = Real.exp (-(((r - -m) / s) ^ 2 / 2)) / (√(2 * Real.pi) * s) + Real.exp (-(((r - m) / s) ^ 2 / 2)) / (√(2 * Real.pi) * s) := by
    unfold foldedPDF
    rw [if_neg (not_lt.2 hr), gaussian_as_term (by positivity), gaussian_as_term (by positivity), Real.sqrt_sq sp.le, add_comm]
    rw [show -r - m = -(r - -m) by ring, neg_div, neg_sq]
  rw [e]
  obtain ⟨y1, hy1, e1⟩ := g1
  obtain ⟨y2, hy2, e2⟩ := g2
  have small : ∀ z : ℝ, Real.exp (-(z ^ 2 / 2)) / (√(2 * Real.pi) * s) = 1 / s * (Real.exp (-(z ^ 2 / 2)) / √(2 * Real.pi)) := fun z => by ring
  have sm2 : ∀ z : ℝ, 0 ≤ Real.exp (-(z ^ 2 / 2)) / √(2 * Real.pi) ∧ Real.exp (-(z ^ 2 / 2)) / √(2 * Real.pi) ≤ 1 / 2 := fun z => by
    refine ⟨by positivity, ?_⟩
    have e1 : Real.exp (-(z ^ 2 / 2)) ≤ 1 := Real.exp_le_one_iff.2 (by have := sq_nonneg z; linarith)
    exact div_le_div₀ (by norm_num) e1 (by norm_num) two_pi_bounds.1
  rw [small] at e1 e2
  rw [small, small]
  obtain ⟨l1, u1⟩ := sm2 ((r - -m) / s)
  obtain ⟨l2, u2⟩ := sm2 ((r - m) / s)
  set t1 := Real.exp (-(((r - -m) / s) ^ 2 / 2)) / √(2 * Real.pi)
  set t2 := Real.exp (-(((r - m) / s) ^ 2 / 2)) / √(2 * Real.pi)
  rw [← mul_add]
  have hsum := round_scale (y := y1 + y2) (k := 1 / s) (T := t1 + t2) (δ := 1 / 2 ^ 44) hs.inv (by
    rw [show y1 + y2 - 1 / s * (t1 + t2) = (y1 - 1 / s * t1) + (y2 - 1 / s * t2) by ring]
    refine (abs_add_le _ _).trans ?_
    linarith only [e1, e2]) (by rw [abs_of_nonneg (by linarith)]; linarith) (by norm_num)
  obtain ⟨R, hR, hRe⟩ := hsum
  refine ⟨R, hR.of_ext (add_ext hy1 hy2).symm, hRe.trans ?_⟩
  exact mul_le_mul_of_nonneg_left (by norm_num) kp.le

open Classical in
/-- C253 (part): the uniform density is within 2^-50/width of the real one at every f64 other than the rounded upper end `fl(lb + width)`
(see `C253_uniform_violated`) -/
theorem C253_uniform_partial {a b : F64} {l w : ℝ} {d : UniformF} (h : UniformF.new a b = .ok d) (fa : IsF64 a) (ha : a.Is l)
    (hb : b.Is w) (hs : Moderate w) : AccuratePDF d.pdf (uniformPDF l (l + w)) {r | r ≠ FP.rnd (l + w)} (1 / w * (1 / 2 ^ 50)) := by
  obtain ⟨h0, rfl⟩ := UniformF.new_ok.1 h
  intro x r fx hx hr
  have hr : r ≠ FP.rnd (l + w) := hr
  have kp := hs.inv.pos
  have rr := (fx r hx).1
  have key : ¬ (a + b < x) ↔ r ≤ l + w := by
    have e := add_ext ha hb
    by_cases hh : FP.huge (FP.rnd (l + w))
    · have hlw : 0 < l + w := by
        by_contra hc
        push Not at hc
        have wp := hs.pos
        have h1 : FP.rnd l ≤ FP.rnd (l + w) := FP.Lawful.rnd_mono (by linarith)
        have h2 : FP.rnd (l + w) ≤ FP.rnd 0 := FP.Lawful.rnd_mono hc
        rw [F64.rnd_zero] at h2
        rw [(fa l ha).1] at h1
        refine (fa l ha).2 (FP.Lawful.huge_mono _ l ?_ hh)
        rw [abs_of_nonpos h2, abs_of_nonpos (h1.trans h2)]; linarith
      rw [F64.round, if_pos hh, if_pos hlw] at e
      have e2 : a + b = pinf := by cases h : a + b <;> rw [h] at e <;> simp_all
      rw [e2]
      refine ⟨fun _ => ?_, fun _ => ?_⟩
      · by_contra hc
        push Not at hc
        have h1 := FP.Lawful.rnd_mono hc.le
        rw [rr] at h1
        have h2 := FP.Lawful.rnd_mono hlw.le
        rw [F64.rnd_zero] at h2
        refine (fx r hx).2 (FP.Lawful.huge_mono _ r ?_ hh)
        rw [abs_of_nonneg h2, abs_of_nonneg (h2.trans h1)]; exact h1
      · rintro ⟨u, v, h1, h2, h3⟩
        simp only [F64.ext_pinf, Option.some.injEq] at h1
        subst h1
        exact absurd h3 not_top_lt
    · have hI := (round_is hh).of_ext e.symm
      rw [hI.lt_iff hx, not_lt]
      constructor
      · intro h1
        by_contra hc
        push Not at hc
        have := FP.Lawful.rnd_mono hc.le
        rw [rr] at this
        exact hr (le_antisymm h1 this)
      · intro h1
        have := FP.Lawful.rnd_mono h1
        rwa [rr] at this
  change Within (if x < a ∨ a + b < x then 0 else 1 / b) _ _
  have hinv : Within (1 / b) (1 / w) (1 / w * (1 / 2 ^ 50)) := by
    have := (Within.exact Is.one).div_scale (by norm_num) (by norm_num) hb hs.lo hs.hi
    refine this.mono ?_
    rw [zero_add, div_eq_mul_one_div, mul_comm]
    exact mul_le_mul_of_nonneg_left (by norm_num) kp.le
  unfold uniformPDF
  by_cases hin : l ≤ r ∧ r ≤ l + w
  · rw [if_pos hin, if_neg, add_sub_cancel_left]
    · exact hinv
    · rintro (h | h)
      · exact absurd ((hx.lt_iff ha).1 h) (not_lt.2 hin.1)
      · exact key.2 hin.2 h
  · rw [if_neg hin, if_pos]
    · exact ⟨0, Is.zero, by rw [sub_zero, abs_zero]; positivity⟩
    · by_contra hc
      push Not at hc
      refine hin ⟨not_lt.1 fun h => hc.1 ((hx.lt_iff ha).2 h), key.1 hc.2⟩
end

section
open B64
attribute [local instance] binary64 binary64_lawful B64.libm B64.specialFns B64.accurate

theorem moderate_one : Moderate 1 := by
  refine ⟨?_, one_le_pow₀ (by norm_num)⟩
  rw [div_le_one (by positivity)]; exact one_le_pow₀ (by norm_num)

/-- a density that is NaN somewhere is not accurate -/
theorem not_accurate_of_nan {F : F64 → F64} {f : ℝ → ℝ} {S : Set ℝ} {r : ℝ} (hr : r ∈ S) (hx : IsF64 (fin r)) (h : F (fin r) = nan) (ε : ℝ) :
    ¬ AccuratePDF F f S ε := fun hc => by
  obtain ⟨p, hp, -⟩ := hc (fin r) r hx (Is.fin r) hr
  rw [h] at hp
  rcases hp with h | ⟨h, -⟩ <;> cases h

theorem exp_1000_big : (2:ℝ) ^ 1024 ≤ Real.exp 1000 := by
  have h := Real.exp_one_gt_d9
  have e : Real.exp 1000 = (Real.exp 1 ^ 4) ^ 250 := by rw [← pow_mul, ← Real.exp_nat_mul]; norm_num
  have h2 : (2:ℝ) ^ 5 ≤ Real.exp 1 ^ 4 := by
    calc (2:ℝ) ^ 5 ≤ (2.7) ^ 4 := by norm_num
      _ ≤ _ := by gcongr; linarith
  rw [e]
  calc (2:ℝ) ^ 1024 ≤ (2 ^ 5) ^ 250 := by rw [← pow_mul]; exact pow_le_pow_right₀ (by norm_num) (by norm_num)
    _ ≤ _ := by gcongr

/-- C253 (violation): the density of the standard logistic distribution is NaN a thousand scales below the location, where the real one is
below 2^-1000, so it has no error bound at all -/
theorem C253_logistic_violated : ∃ d, Logistic.new (fin 0) (fin 1) = .ok d ∧ d.pdf (fin (-1000)) = nan ∧
    ∀ ε, ¬ AccuratePDF d.pdf (logisticPDF 0 1) Set.univ ε := by
  have hd : Logistic.new (fin 0) (fin 1) = .ok ⟨fin 0, fin 1⟩ := Logistic.new_ok.2 ⟨lt_of_pos one_pos (Is.fin 1), rfl⟩
  have hn : (⟨fin 0, fin 1⟩ : Logistic).pdf (fin (-1000)) = nan := by
    refine (C211_logistic_violated hd trivial trivial).1 _ ?_
    have h0 : (fin (-1000) - fin 0).Is (-1000) := by
      have := sub_is (Is.fin (-1000)) (Is.fin 0) (by rw [sub_zero]; exact Within.huge_ok (M := 1000) (by norm_num) (by norm_num))
      have e : FP.rnd (-1000 - 0) = (-1000 : ℝ) := by
        have := FP.Lawful.rnd_dyadic (-1000) 0 (by norm_num) (by norm_num)
        rw [sub_zero]; simpa using this
      rwa [e] at this
    have h1 : ((fin (-1000) - fin 0) / fin 1).Is (-1000) := by
      have := div_is h0 (Is.fin 1) one_ne_zero (by rw [div_one]; exact Within.huge_ok (M := 1000) (by norm_num) (by norm_num))
      have e : FP.rnd (-1000 / 1) = (-1000 : ℝ) := by
        have := FP.Lawful.rnd_dyadic (-1000) 0 (by norm_num) (by norm_num)
        rw [div_one]; simpa using this
      rwa [e] at this
    rw [exp_fin h1.neg, neg_neg]
    exact round_pinf exp_1000_big
  refine ⟨_, hd, hn, fun ε => not_accurate_of_nan (Set.mem_univ _) (isF64_neg ?_) hn ε⟩
  exact isF64_small 1000 le_rfl

/-- C253 (violation): where the standardised argument overflows downwards the Gumbel density is `exp(inf - inf)`, NaN -/
theorem C253_gumbel_violated : ∃ d, Gumbel.new (fin 0) (fin (1 / 2 ^ 500)) = .ok d ∧ Moderate (1 / 2 ^ 500) ∧
    IsF64 (fin (1 / 2 ^ 500)) ∧ d.pdf (fin (-2 ^ 1000)) = nan ∧ ∀ ε, ¬ AccuratePDF d.pdf (gumbelPDF 0 (1 / 2 ^ 500)) Set.univ ε := by
  have hp : (0:ℝ) < 1 / 2 ^ 500 := by positivity
  have hd : Gumbel.new (fin 0) (fin (1 / 2 ^ 500)) = .ok ⟨fin 0, fin (1 / 2 ^ 500)⟩ := Gumbel.new_ok.2 ⟨lt_of_pos hp (Is.fin _), rfl⟩
  have fx : IsF64 (fin (-2 ^ 1000)) := isF64_neg (isF64_pow 1000 (by norm_num))
  have hn : (⟨fin 0, fin (1 / 2 ^ 500)⟩ : Gumbel).pdf (fin (-2 ^ 1000)) = nan := by
    have r0 : rnd (-2 ^ 1000 - 0) = -2 ^ 1000 := by rw [sub_zero]; exact (fx _ (Is.fin _)).1
    have h0 : (fin (-2 ^ 1000) - fin 0).Is (-2 ^ 1000) := by
      have := sub_is (Is.fin (-2 ^ 1000)) (Is.fin 0) (by
        change ¬ FP.huge (rnd (-2 ^ 1000 - 0)); rw [r0]; exact (fx _ (Is.fin _)).2)
      exact this.congr r0
    have e := div_fin_ext h0 (Is.fin (1 / 2 ^ 500)) hp.ne'
    have hq : (-2 ^ 1000 : ℝ) / (1 / 2 ^ 500) = -2 ^ 1500 := by rw [div_div_eq_mul_div, div_one, neg_mul, ← pow_add]
    have hz : -((fin (-2 ^ 1000) - fin 0) / fin (1 / 2 ^ 500)) = pinf := by
      rw [hq] at e
      have hr : F64.round (-2 ^ 1500) = ninf := by
        have r1 : rnd (2 ^ 1500) = 2 ^ 1500 := by
          have := rnd_two_pow (e := 1500) (by norm_num)
          rwa [show (2:ℝ) ^ (1500:ℤ) = 2 ^ 1500 from zpow_natCast 2 1500] at this
        have hh : FP.huge (FP.rnd (-2 ^ 1500)) := by
          rw [FP.Lawful.rnd_neg, FP.Lawful.huge_neg]
          change (2:ℝ) ^ 1024 ≤ |rnd (2 ^ 1500)|
          rw [r1, abs_of_pos (by positivity)]
          exact pow_le_pow_right₀ (by norm_num) (by norm_num)
        have hp : (0:ℝ) < 2 ^ 1500 := by positivity
        rw [F64.round, if_pos hh, if_neg (not_lt.2 (neg_nonpos.2 hp.le))]
      rw [hr] at e
      have : (fin (-2 ^ 1000) - fin 0) / fin (1 / 2 ^ 500) = ninf := by
        cases h : (fin (-2 ^ 1000) - fin 0) / fin (1 / 2 ^ 500) <;> rw [h] at e <;> simp_all
      rw [this]; rfl
    change F64.exp (-((fin (-2 ^ 1000) - fin 0) / fin (1 / 2 ^ 500)) - F64.exp (-((fin (-2 ^ 1000) - fin 0) / fin (1 / 2 ^ 500)))) / fin (1 / 2 ^ 500) = nan
    rw [hz]
    change F64.exp (pinf - pinf) / _ = nan
    rw [pmp]; exact nan_div' _
  refine ⟨_, hd, ⟨le_rfl, ?_⟩, isF64_pow_inv 500 (by norm_num), hn, fun ε => not_accurate_of_nan (Set.mem_univ _) fx hn ε⟩
  refine le_trans (b := 1) ?_ (one_le_pow₀ (by norm_num))
  rw [div_le_one (by positivity)]; exact one_le_pow₀ (by norm_num)

/-- C253 (violation): the rounded upper end can lie above the real one; the uniform density there is `1/width`, the real one is 0 -/
theorem C253_uniform_violated : ∃ d, UniformF.new (fin 1) (fin (3 / 2 ^ 54)) = .ok d ∧ Moderate (3 / 2 ^ 54) ∧ IsF64 (fin (3 / 2 ^ 54)) ∧
    ¬ AccuratePDF d.pdf (uniformPDF 1 (1 + 3 / 2 ^ 54)) Set.univ (1 / (3 / 2 ^ 54) * (1 / 2)) := by
  have hp : (0:ℝ) < 3 / 2 ^ 54 := by positivity
  have hm : Moderate (3 / 2 ^ 54) := by
    constructor
    · calc (1:ℝ) / 2 ^ 500 ≤ 1 / 2 ^ 54 := one_div_le_one_div_of_le (by positivity) (pow_le_pow_right₀ (by norm_num) (by norm_num))
        _ ≤ 3 / 2 ^ 54 := by norm_num
    · exact le_trans (b := 1) (by norm_num) (one_le_pow₀ (by norm_num))
  have fw : IsF64 (fin (3 / 2 ^ 54)) := isF64_of (FP.Lawful.rnd_dyadic 3 54 (by norm_num) (by norm_num)) (lt1024 (by rw [abs_of_pos hp]; norm_num))
  have rx : rnd (1 + 1 / 2 ^ 52) = 1 + 1 / 2 ^ 52 := by
    have := FP.Lawful.rnd_dyadic (2 ^ 52 + 1) 52 (by norm_num) (by norm_num)
    have e : (((2 ^ 52 + 1 : ℤ) : ℝ)) / 2 ^ 52 = 1 + 1 / 2 ^ 52 := by push_cast; norm_num
    rwa [e] at this
  have fx : IsF64 (fin (1 + 1 / 2 ^ 52)) := isF64_of rx (lt1024 (by rw [abs_of_pos (by positivity)]; norm_num))
  have hs : fin 1 + fin (3 / 2 ^ 54) = fin (1 + 1 / 2 ^ 52) := by
    refine add_val ?_ (lt1024 (by rw [abs_of_pos (by positivity)]; norm_num)) (by positivity)
    rw [rnd_eq (2 ^ 52 + 1) (-52) (by norm_num) (by norm_num) (by norm_num) (by rw [abs_lt]; norm_num)]
    norm_num
  refine ⟨_, UniformF.new_ok.2 ⟨lt_of_pos hp (Is.fin _), rfl⟩, hm, fw, fun hc => ?_⟩
  obtain ⟨p, hp1, hpe⟩ := hc _ _ fx (Is.fin _) (Set.mem_univ _)
  have e : (⟨fin 1, fin (3 / 2 ^ 54), 1 / fin (3 / 2 ^ 54)⟩ : UniformF).pdf (fin (1 + 1 / 2 ^ 52)) = 1 / fin (3 / 2 ^ 54) := by
    unfold UniformF.pdf
    dsimp only
    rw [hs, if_neg]
    rintro (h | h)
    · have := ((Is.fin _).lt_iff (Is.fin _)).1 h; norm_num at this
    · exact absurd (((Is.fin _).lt_iff (Is.fin _)).1 h) (lt_irrefl _)
  rw [e] at hp1
  obtain ⟨q, hq, hqe⟩ := (Within.exact Is.one).div_scale (by norm_num) (by norm_num) (Is.fin (3 / 2 ^ 54)) hm.lo hm.hi
  rw [hp1.eq hq] at hpe
  unfold uniformPDF at hpe
  rw [if_neg (by norm_num), sub_zero] at hpe
  have := (abs_le.1 hqe).1
  have := (abs_le.1 hpe).2
  norm_num at *
  linarith
end

/-! instances in binary64 -/
section
open B64
attribute [local instance] binary64 binary64_lawful B64.libm B64.specialFns B64.accurate
example : ∃ d p, Logistic.new (fin 0) (fin 1) = .ok d ∧ (d.pdf (fin (7:ℕ))).Is p ∧ |p - logisticPDF 0 1 7| ≤ 1 / 2 ^ 45 := by
  have hd : Logistic.new (fin 0) (fin 1) = .ok ⟨fin 0, fin 1⟩ := Logistic.new_ok.2 ⟨lt_of_pos one_pos (Is.fin 1), rfl⟩
  obtain ⟨p, hp, he⟩ := C253_logistic_partial hd (by simpa using isF64_small 0 (by norm_num)) (Is.fin _) (Is.fin _) moderate_one (fin (7:ℕ)) 7
    (isF64_small 7 (by norm_num)) (Is.fin _) (by norm_num)
  exact ⟨_, p, hd, hp, by simpa using he⟩
example : ∃ d p, UvNormal.new (fin 0) (fin 1) = .ok d ∧ (d.pdf (fin (3:ℕ))).Is p ∧
    |p - ProbabilityTheory.gaussianPDFReal 0 1 3| ≤ 1 / 2 ^ 45 := by
  have hd : UvNormal.new (fin 0) (fin 1) = .ok ⟨fin 0, fin 1⟩ := UvNormal.new_ok.2 ⟨lt_of_pos one_pos (Is.fin 1), rfl⟩
  obtain ⟨p, hp, he⟩ := C253_normal hd (by simpa using isF64_small 0 (by norm_num)) (Is.fin _) (by simpa using isF64_small 1 (by norm_num))
    (Is.fin _) (by rw [Real.sqrt_one]; exact moderate_one) (fin (3:ℕ)) 3 (isF64_small 3 (by norm_num)) (Is.fin _) (Set.mem_univ _)
  exact ⟨_, p, hd, hp, by simpa using he⟩
example : ∃ d p, Gumbel.new (fin 0) (fin 1) = .ok d ∧ (d.pdf (fin (3:ℕ))).Is p ∧ |p - gumbelPDF 0 1 3| ≤ 1 / 2 ^ 45 := by
  have hd : Gumbel.new (fin 0) (fin 1) = .ok ⟨fin 0, fin 1⟩ := Gumbel.new_ok.2 ⟨lt_of_pos one_pos (Is.fin 1), rfl⟩
  obtain ⟨p, hp, he⟩ := C253_gumbel_partial hd (by simpa using isF64_small 0 (by norm_num)) (Is.fin _) (Is.fin _) moderate_one (fin (3:ℕ)) 3
    (isF64_small 3 (by norm_num)) (Is.fin _) (lt_of_lt_of_le (b := (1:ℝ)) (by norm_num) (one_le_pow₀ (by norm_num)) : ((0:ℝ) - 3) / 1 < 2 ^ 500)
  exact ⟨_, p, hd, hp, by simpa using he⟩
end
end Rstat
