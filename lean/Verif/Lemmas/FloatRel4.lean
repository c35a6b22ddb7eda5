import Verif.Lemmas.FloatRel3

/-! Forward error analysis of the standardised densities. -/
set_option linter.unusedSectionVars false
namespace Rstat
open F64

/-- reciprocal of a number known up to a relative error -/
theorem rel_inv {W u η : ℝ} (hu : 0 < u) (η1 : η ≤ 1 / 2) (h : |W - u| ≤ η * u) : u / 2 ≤ W ∧ |1 / W - 1 / u| ≤ 2 * η * (1 / u) := by
  obtain ⟨h1, h2⟩ := abs_le.1 h
  have hW : u / 2 ≤ W := by nlinarith
  have Wp : 0 < W := by linarith
  refine ⟨hW, ?_⟩
  have i1 : 1 / W ≤ 2 * (1 / u) := by rw [mul_one_div, div_le_div_iff₀ Wp hu]; linarith
  rw [show 1 / W - 1 / u = (u - W) * (1 / W) * (1 / u) by field_simp, abs_mul, abs_mul, abs_of_pos (show 0 < 1 / W by positivity),
    abs_of_pos (show 0 < 1 / u by positivity), abs_sub_comm]
  have η0 : 0 ≤ η * u := (abs_nonneg _).trans h
  calc |W - u| * (1 / W) * (1 / u) ≤ (η * u) * (2 * (1 / u)) * (1 / u) := by gcongr
    _ = 2 * η * (1 / u) := by field_simp

/-! ### `1/(1+x²)` -/
theorem lor_deriv (x : ℝ) : HasDerivAt (fun v : ℝ => 1 / (1 + v ^ 2)) (-(2 * x) / (1 + x ^ 2) ^ 2) x := by
  have h : HasDerivAt (fun v : ℝ => 1 + v ^ 2) (2 * x) x := by
    have := (hasDerivAt_pow 2 x).const_add 1
    exact this.congr_deriv (by norm_num)
  have h2 := h.inv (by positivity : (1 + x ^ 2 : ℝ) ≠ 0)
  have e : (fun v : ℝ => 1 / (1 + v ^ 2)) = (fun v : ℝ => 1 + v ^ 2)⁻¹ := by funext v; simp
  rw [e]; exact h2
theorem lor_C (x : ℝ) : |x| * |(-(2 * x) / (1 + x ^ 2) ^ 2)| ≤ 2 := by
  rw [← abs_mul, abs_le]
  have hp : 0 < (1 + x ^ 2) ^ 2 := by positivity
  constructor
  · rw [mul_div_assoc', le_div_iff₀ hp]; nlinarith [sq_nonneg x, sq_nonneg (x ^ 2)]
  · rw [mul_div_assoc', div_le_iff₀ hp]; nlinarith [sq_nonneg x, sq_nonneg (x ^ 2)]
theorem lor_D (x : ℝ) : |(-(2 * x) / (1 + x ^ 2) ^ 2)| ≤ 2 := by
  rw [abs_le]
  have hp : 0 < (1 + x ^ 2) ^ 2 := by positivity
  constructor
  · rw [le_div_iff₀ hp]; nlinarith [sq_nonneg x, sq_nonneg (x ^ 2), sq_nonneg (x - 1)]
  · rw [div_le_iff₀ hp]; nlinarith [sq_nonneg x, sq_nonneg (x ^ 2), sq_nonneg (x + 1)]
theorem lor_big {M : ℝ} (h : 2 ^ 500 ≤ M) : 1 / (1 + M) ≤ 1 / 2 ^ 120 := by
  obtain ⟨h0, h1⟩ := big_inv h
  refine le_trans ?_ h1
  exact one_div_le_one_div_of_le h0 (by linarith)
theorem sq_big {z : ℝ} (h : 2 ^ 500 ≤ |z|) : 2 ^ 500 ≤ z ^ 2 := by
  have p : (1:ℝ) ≤ 2 ^ 500 := one_le_pow₀ (by norm_num)
  generalize (2:ℝ) ^ 500 = M at *
  rw [← sq_abs]; nlinarith

/-! ### `exp(-x²/2)` -/
theorem gss_deriv (x : ℝ) : HasDerivAt (fun v : ℝ => Real.exp (-(v ^ 2 / 2))) (Real.exp (-(x ^ 2 / 2)) * -x) x := by
  have h : HasDerivAt (fun v : ℝ => -(v ^ 2 / 2)) (-x) x := by
    have := ((hasDerivAt_pow 2 x).div_const 2).neg
    exact this.congr_deriv (by norm_num)
  exact h.exp
theorem gss_C (x : ℝ) : |x| * |Real.exp (-(x ^ 2 / 2)) * -x| ≤ 2 := by
  rw [abs_mul, abs_neg, abs_of_pos (Real.exp_pos _)]
  have := abs_mul_exp_neg (x ^ 2 / 2) (by positivity)
  have e : |x| * |x| = x ^ 2 := by rw [abs_mul_abs_self]; ring
  calc |x| * (Real.exp (-(x ^ 2 / 2)) * |x|) = 2 * (x ^ 2 / 2 * Real.exp (-(x ^ 2 / 2))) := by rw [← e]; ring
    _ ≤ 2 := by linarith
theorem gss_D (x : ℝ) : |Real.exp (-(x ^ 2 / 2)) * -x| ≤ 2 := by
  have h1 := gss_C x
  rw [abs_mul, abs_neg, abs_of_pos (Real.exp_pos _)] at *
  have e1 : Real.exp (-(x ^ 2 / 2)) ≤ 1 := Real.exp_le_one_iff.2 (by have := sq_nonneg x; linarith)
  have p := Real.exp_pos (-(x ^ 2 / 2))
  rcases le_total |x| 1 with h | h
  · have := abs_nonneg x; nlinarith
  · have : 0 ≤ Real.exp (-(x ^ 2 / 2)) * |x| := by positivity
    nlinarith

/-! ### `exp(x - e^x)` -/
theorem gmb_deriv (x : ℝ) : HasDerivAt (fun v : ℝ => Real.exp (v - Real.exp v)) (Real.exp (x - Real.exp x) * (1 - Real.exp x)) x :=
  ((hasDerivAt_id x).sub (Real.hasDerivAt_exp x)).exp
theorem cube_exp {u : ℝ} (h : 0 ≤ u) : u ^ 3 * Real.exp (-u) ≤ 6 := by
  have := Real.pow_div_factorial_le_exp u h 3
  have e : (Nat.factorial 3 : ℝ) = 6 := by norm_num [Nat.factorial]
  rw [e, div_le_iff₀ (by norm_num)] at this
  rw [Real.exp_neg, ← div_eq_mul_inv, div_le_iff₀ (Real.exp_pos _)]; linarith
theorem gmb_split (x : ℝ) : Real.exp (x - Real.exp x) = Real.exp x * Real.exp (-Real.exp x) := by rw [← Real.exp_add]; rfl
theorem gmb_le (x : ℝ) : |Real.exp (x - Real.exp x) * (1 - Real.exp x)| ≤ Real.exp x * Real.exp (-Real.exp x) * Max.max 1 (Real.exp x) := by
  have p := Real.exp_pos x
  rw [abs_mul, abs_of_pos (Real.exp_pos _), gmb_split]
  gcongr
  rw [abs_le]
  have := le_max_left 1 (Real.exp x); have := le_max_right 1 (Real.exp x)
  constructor <;> linarith
theorem gmb_C (x : ℝ) : |x| * |Real.exp (x - Real.exp x) * (1 - Real.exp x)| ≤ 6 := by
  have p := Real.exp_pos x
  have q := Real.exp_pos (-Real.exp x)
  refine (mul_le_mul_of_nonneg_left (gmb_le x) (abs_nonneg x)).trans ?_
  rcases le_total x 0 with h | h
  · rw [max_eq_left (Real.exp_le_one_iff.2 h), abs_of_nonpos h, mul_one]
    have h1 := abs_mul_exp_neg (-x) (by linarith)
    rw [neg_neg] at h1
    have h2 : Real.exp (-Real.exp x) ≤ 1 := Real.exp_le_one_iff.2 (by linarith)
    have h3 : 0 ≤ -x * Real.exp x := mul_nonneg (by linarith) p.le
    calc -x * (Real.exp x * Real.exp (-Real.exp x)) = (-x * Real.exp x) * Real.exp (-Real.exp x) := by ring
      _ ≤ 1 * 1 := by gcongr
      _ ≤ 6 := by norm_num
  · rw [max_eq_right (Real.one_le_exp h), abs_of_nonneg h]
    have h1 : x ≤ Real.exp x := by linarith [Real.add_one_le_exp x]
    calc x * (Real.exp x * Real.exp (-Real.exp x) * Real.exp x) ≤ Real.exp x * (Real.exp x * Real.exp (-Real.exp x) * Real.exp x) := by gcongr
      _ = Real.exp x ^ 3 * Real.exp (-Real.exp x) := by ring
      _ ≤ 6 := cube_exp p.le
theorem gmb_D (x : ℝ) : |Real.exp (x - Real.exp x) * (1 - Real.exp x)| ≤ 1 := by
  have p := Real.exp_pos x
  refine (gmb_le x).trans ?_
  rcases le_total x 0 with h | h
  · rw [max_eq_left (Real.exp_le_one_iff.2 h), mul_one]
    exact abs_mul_exp_neg _ p.le
  · rw [max_eq_right (Real.one_le_exp h)]
    calc Real.exp x * Real.exp (-Real.exp x) * Real.exp x = Real.exp x ^ 2 * Real.exp (-Real.exp x) := by ring
      _ ≤ 1 := mul_exp_neg_le p.le

section
variable [FP] [FP.Lawful] [FP.Accurate] [FP.Libm]

/-- the square of an inexact argument, plus one -/
theorem zed_sq1 {a : F64} {z : ℝ} (h : Zed a z) :
    (∃ W, (1 + a * a).Is W ∧ 1 / 2 ≤ W ∧ |1 / W - 1 / (1 + z ^ 2)| ≤ 1 / 2 ^ 47) ∨
    ((1 : F64) + a * a = pinf ∧ 1 / (1 + z ^ 2) ≤ 1 / 2 ^ 48) := by
  rcases h with ⟨Z, hZ, hz⟩ | ⟨rfl, hv⟩ | ⟨rfl, hv⟩
  · have hm := mvt_rel (g := fun v : ℝ => 1 / (1 + v ^ 2)) lor_deriv hz (fun x _ => lor_C x) (fun x _ => lor_D x)
    have big : 2 ^ 500 ≤ Z ^ 2 → 1 / (1 + z ^ 2) ≤ 1 / 2 ^ 48 := fun hb => by
      have h1 := lor_big hb
      have h2 := (abs_le.1 hm).1
      generalize 1 / (1 + Z ^ 2) = A at *
      generalize 1 / (1 + z ^ 2) = B at *
      linarith only [h1, h2]
    have q0 := sq_nonneg Z
    have e := mul_fin_ext hZ hZ
    rw [← sq] at e
    rcases zed_of_ext e with ⟨P, hP, hPe⟩ | ⟨hi, hb⟩ | ⟨-, hb⟩
    · have P0 : 0 ≤ P := by
        have h1 : F64.round 0 ≤ F64.round (Z ^ 2) := round_mono q0
        exact (round_zero_is.le_iff hP).1 (le_congr rfl e.symm h1)
      rw [abs_of_nonneg q0] at hPe
      rcases zed_of_ext (add_ext Is.one hP) with ⟨W, hW, hWe⟩ | ⟨hi, hb⟩ | ⟨-, hb⟩
      · left
        rw [abs_of_nonneg (by linarith : 0 ≤ 1 + P)] at hWe
        have hr : |W - (1 + Z ^ 2)| ≤ 1 / 2 ^ 49 * (1 + Z ^ 2) := by
          have := abs_sub_le W (1 + P) (1 + Z ^ 2)
          rw [show 1 + P - (1 + Z ^ 2) = P - Z ^ 2 by ring] at this
          have hP2 := (abs_le.1 hPe).2
          generalize Z ^ 2 = q at *
          linarith only [this, hP2, hPe, hWe, q0]
        obtain ⟨h1, h2⟩ := rel_inv (by positivity : 0 < 1 + Z ^ 2) (by norm_num) hr
        refine ⟨W, hW, by linarith, ?_⟩
        have h3 := abs_sub_le (1 / W) (1 / (1 + Z ^ 2)) (1 / (1 + z ^ 2))
        have h4 : 1 / (1 + Z ^ 2) ≤ 1 := by rw [div_le_one (by positivity)]; linarith
        generalize 1 / (1 + Z ^ 2) = A at *
        linarith only [h2, h3, h4, hm]
      · right
        refine ⟨hi, ?_⟩
        have h1 := lor_big hb
        have h2 : 1 / (1 + Z ^ 2) ≤ 3 / (2 + P) := by
          rw [div_le_div_iff₀ (by positivity) (by positivity)]
          have hP2 := (abs_le.1 hPe).2
          linarith only [hP2, q0]
        have h3 := (abs_le.1 hm).1
        rw [← add_assoc, one_add_one_eq_two] at h1
        rw [show 3 / (2 + P) = 3 * (1 / (2 + P)) by ring] at h2
        generalize 1 / (1 + Z ^ 2) = A at *
        generalize 1 / (1 + z ^ 2) = B at *
        generalize 1 / (2 + P) = I at *
        linarith only [h1, h2, h3]
      · exfalso
        have : (0:ℝ) < 2 ^ 500 := by positivity
        generalize (2:ℝ) ^ 500 = M at *
        linarith
    · right
      rw [hi, fin_add_pinf Is.one]
      exact ⟨rfl, big hb⟩
    · exfalso
      have : (0:ℝ) < 2 ^ 500 := by positivity
      generalize (2:ℝ) ^ 500 = M at *
      linarith
  · right
    refine ⟨?_, (lor_big (sq_big (hv.trans (le_abs_self z)))).trans (by norm_num)⟩
    rw [show (pinf * pinf : F64) = pinf by change F64.mul pinf pinf = pinf; simp [F64.mul, sinf]]
    exact fin_add_pinf Is.one
  · right
    refine ⟨?_, (lor_big (sq_big ((by generalize (2:ℝ) ^ 500 = M at *; linarith : (2:ℝ) ^ 500 ≤ -z).trans (neg_le_abs z)))).trans (by norm_num)⟩
    rw [show (ninf * ninf : F64) = pinf by change F64.mul ninf ninf = pinf; simp [F64.mul, sinf]]
    exact fin_add_pinf Is.one

/-- `exp` of a non-positive argument with relative error `η` -/
theorem exp_eta {a : F64} {T t η : ℝ} (ha : a.Is (-T)) (hT : 0 ≤ T) (ht : 0 ≤ t) (η0 : 0 ≤ η) (η1 : η ≤ 1 / 2) (h : |T - t| ≤ η * t + 1 / 2 ^ 110) :
    Within a.exp (Real.exp (-t)) (2 * η + 1 / 2 ^ 50) := by
  have pos : ∀ x ∈ Set.uIcc t T, 0 ≤ x := fun x hx => le_trans (le_min ht hT) (Set.mem_uIcc.1 hx |>.elim (fun h => (min_le_left _ _).trans h.1) (fun h => (min_le_right _ _).trans h.1))
  have hm := mvt_eta (g := fun v : ℝ => Real.exp (-v)) (C := 1) (D := 1) (τ := 1 / 2 ^ 110) expneg_deriv η0 η1 (by positivity)
    (by rwa [abs_of_nonneg ht])
    (fun x hx => by
      have := pos x hx
      rw [abs_neg, abs_of_pos (Real.exp_pos _), abs_of_nonneg this]; exact abs_mul_exp_neg x this)
    (fun x hx => by
      have := pos x hx
      rw [abs_neg, abs_of_pos (Real.exp_pos _)]; exact Real.exp_le_one_iff.2 (by linarith))
  have e1 : Real.exp (-T) ≤ 1 := Real.exp_le_one_iff.2 (by linarith)
  rcases exp_at ha with ⟨E, hE, h0, hE2⟩ | ⟨hi, hb⟩
  · refine ⟨E, hE, ?_⟩
    have h3 := abs_sub_le E (Real.exp (-T)) (Real.exp (-t))
    linarith only [h3, hm, hE2, e1]
  · exfalso
    have : (1:ℝ) < 2 ^ 1021 := one_lt_pow₀ (by norm_num) (by norm_num)
    exact absurd (hb.trans e1) (not_le.2 this)

/-- `exp` of a huge negative argument -/
theorem exp_ninf_small {t : ℝ} (ht : 2 ^ 499 ≤ t) : Within ((ninf : F64).exp) (Real.exp (-t)) (1 / 2 ^ 110) := by
  refine ⟨0, Is.fin 0, ?_⟩
  have p : (2:ℝ) ^ 120 ≤ 2 ^ 499 := pow_le_pow_right₀ (by norm_num) (by norm_num)
  have ht := p.trans ht
  have t0 : 0 < t := lt_of_lt_of_le (by positivity) ht
  rw [zero_sub, abs_neg, abs_of_pos (Real.exp_pos _)]
  refine (exp_neg_le_inv t0).trans ((one_div_le_one_div_of_le (by positivity) ht).trans (by norm_num))

/-- `exp(-z*z/2)` of an inexact argument -/
theorem zed_gauss {a : F64} {z : ℝ} (h : Zed a z) : Within ((-a * a / 2).exp) (Real.exp (-(z ^ 2 / 2))) (1 / 2 ^ 47) := by
  have p500 : (2:ℝ) ^ 500 = 2 * 2 ^ 499 := by rw [pow_succ, mul_comm]
  have two : (2 : F64) = fin 2 := rfl
  have inf : ∀ {b : F64} {y : ℝ}, b = ninf → 2 ^ 500 ≤ y ^ 2 → Within ((b / 2).exp) (Real.exp (-(y ^ 2 / 2))) (1 / 2 ^ 110) := by
    rintro b y rfl hb
    rw [two, ninf_div_const (by norm_num)]
    refine exp_ninf_small ?_
    rw [p500] at hb
    generalize (2:ℝ) ^ 499 = M at *
    linarith only [hb]
  rcases h with ⟨Z, hZ, hz⟩ | ⟨rfl, hv⟩ | ⟨rfl, hv⟩
  · have hm := mvt_rel (g := fun v : ℝ => Real.exp (-(v ^ 2 / 2))) gss_deriv hz (fun x _ => gss_C x) (fun x _ => gss_D x)
    have q0 := sq_nonneg Z
    have e := mul_fin_ext hZ.neg hZ
    rw [show -Z * Z = -Z ^ 2 by ring] at e
    have hw : Within ((-a * a / 2).exp) (Real.exp (-(Z ^ 2 / 2))) (5 / 2 ^ 50) := by
      rcases zed_of_ext e with ⟨P, hP, hPe⟩ | ⟨-, hb⟩ | ⟨hi, hb⟩
      · have P0 : P ≤ 0 := by
          have h1 : F64.round (-Z ^ 2) ≤ F64.round 0 := round_mono (by linarith)
          exact (hP.le_iff round_zero_is).1 (le_congr e.symm rfl h1)
        rw [abs_neg, abs_of_nonneg q0] at hPe
        have e2 := div_fin_ext hP (Is.fin 2) (by norm_num : (2:ℝ) ≠ 0)
        rw [← two] at e2
        rcases zed_of_ext e2 with ⟨R, hR, hRe⟩ | ⟨-, hb⟩ | ⟨hi, hb⟩
        · have R0 : R ≤ 0 := by
            have h1 : F64.round (P / 2) ≤ F64.round 0 := round_mono (by linarith)
            exact (hR.le_iff round_zero_is).1 (le_congr e2.symm rfl h1)
          rw [abs_of_nonpos (by linarith : P / 2 ≤ 0)] at hRe
          have hfin := exp_eta (a := -a * a / 2) (T := -R) (t := Z ^ 2 / 2) (η := 1 / 2 ^ 49) (by rwa [neg_neg]) (by linarith) (by positivity)
            (by norm_num) (by norm_num) (by
              obtain ⟨h1, h2⟩ := abs_le.1 hPe
              obtain ⟨h3, h4⟩ := abs_le.1 hRe
              rw [abs_le]
              constructor
              · linarith only [h1, h2, h3, h4, q0]
              · linarith only [h1, h2, h3, h4, q0])
          exact hfin.mono (by norm_num)
        · exfalso
          have : (0:ℝ) < 2 ^ 500 := by positivity
          generalize (2:ℝ) ^ 500 = M at *
          linarith only [this, hb, P0]
        · rw [hi]
          refine (exp_ninf_small ?_).mono (by norm_num)
          have hP1 := (abs_le.1 hPe).1
          have one : (1:ℝ) ≤ 2 ^ 499 := one_le_pow₀ (by norm_num)
          rw [p500] at hb
          generalize (2:ℝ) ^ 499 = M at *
          linarith only [hb, hP1, q0, one]
      · exfalso
        have : (0:ℝ) < 2 ^ 500 := by positivity
        generalize (2:ℝ) ^ 500 = M at *
        linarith only [this, hb, q0]
      · exact (inf hi (by generalize (2:ℝ) ^ 500 = M at *; linarith only [hb])).mono (by norm_num)
    refine hw.shift ?_
    linarith only [hm]
  · rw [show (-pinf * pinf : F64) = ninf by change F64.mul ninf pinf = ninf; simp [F64.mul, sinf]]
    exact (inf rfl (sq_big (hv.trans (le_abs_self z)))).mono (by norm_num)
  · rw [show (-ninf * ninf : F64) = ninf by change F64.mul pinf ninf = ninf; simp [F64.mul, sinf]]
    exact (inf rfl (sq_big ((by generalize (2:ℝ) ^ 500 = M at *; linarith : (2:ℝ) ^ 500 ≤ -z).trans (neg_le_abs z)))).mono (by norm_num)

/-- `exp(v - e^v)` of an inexact argument that has not overflowed upwards -/
theorem zed_gumbel {a : F64} {v : ℝ} (h : Zed a v) (hn : a ≠ pinf) :
    Within ((a - a.exp).exp) (Real.exp (v - Real.exp v)) (1 / 2 ^ 46) := by
  rcases h with ⟨V, hV, hz⟩ | ⟨rfl, hv⟩ | ⟨rfl, hv⟩
  · have hm := mvt_rel (g := fun v : ℝ => Real.exp (v - Real.exp v)) gmb_deriv hz (fun x _ => gmb_C x) (fun x _ => gmb_D x)
    have p := Real.exp_pos V
    set t := Real.exp V - V with ht
    have t1 : 1 ≤ t := by linarith [Real.add_one_le_exp V]
    have t2 : Real.exp V ≤ 2 * t := by
      rcases le_total V 0 with h | h
      · linarith
      · have := Real.quadratic_le_exp_of_nonneg h
        nlinarith [sq_nonneg (V - 1)]
    have hw : Within ((a - a.exp).exp) (Real.exp (-t)) (1 / 2 ^ 47) := by
      rcases exp_at hV with ⟨E, hE, h0, hE2⟩ | ⟨hi, hb⟩
      · have e : (a - a.exp).ext = (F64.round (V - E)).ext := add_ext hV hE.neg
        have hq : |V - E - -t| ≤ t / 2 ^ 50 + 1 / 2 ^ 120 := by
          rw [show V - E - -t = -(E - Real.exp V) by rw [ht]; ring, abs_neg]
          linarith only [hE2, t2]
        obtain ⟨q1, q2⟩ := abs_le.1 hq
        have q0 : V - E ≤ 0 := by linarith only [q2, t1]
        rcases zed_of_ext e with ⟨R, hR, hRe⟩ | ⟨-, hb⟩ | ⟨hi, hb⟩
        · rw [abs_of_nonpos q0] at hRe
          obtain ⟨h1, h2⟩ := abs_le.1 hRe
          have hfin := exp_eta (a := a - a.exp) (T := -R) (t := t) (η := 1 / 2 ^ 49) (by rwa [neg_neg]) (by linarith only [h2, q2, t1, q1])
            (by linarith only [t1]) (by norm_num) (by norm_num) (by
              rw [abs_le]
              constructor
              · linarith only [h1, h2, q1, q2, t1]
              · linarith only [h1, h2, q1, q2, t1])
          exact hfin.mono (by norm_num)
        · exfalso
          have : (0:ℝ) < 2 ^ 500 := by positivity
          generalize (2:ℝ) ^ 500 = M at *
          linarith
        · rw [hi]
          refine (exp_ninf_small ?_).mono (by norm_num)
          have p500 : (2:ℝ) ^ 500 = 2 * 2 ^ 499 := by rw [pow_succ, mul_comm]
          rw [p500] at hb
          generalize (2:ℝ) ^ 499 = M at *
          linarith only [hb, q1, t1, q2]
      · rw [hi, show a - pinf = ninf from by rcases hV with rfl | ⟨rfl, rfl⟩ <;> rfl]
        refine (exp_ninf_small ?_).mono (by norm_num)
        have p1 : (2:ℝ) ^ 1021 = 2 ^ 522 * 2 ^ 499 := by rw [← pow_add]
        rw [p1] at hb
        have p2 : (2:ℝ) ≤ 2 ^ 522 := le_self_pow₀ (by norm_num) (by norm_num)
        generalize (2:ℝ) ^ 522 = K at *
        have p0 : (0:ℝ) < 2 ^ 499 := by positivity
        generalize (2:ℝ) ^ 499 = M at *
        nlinarith only [hb, t2, p2, p0]
    have e : V - Real.exp V = -t := by rw [ht]; ring
    rw [e] at hm
    refine hw.shift ?_
    linarith only [hm]
  · exact absurd rfl hn
  · rw [show (ninf - (ninf : F64).exp : F64) = ninf by
      change F64.add ninf (F64.neg (fin 0)) = ninf
      unfold F64.neg; simp [F64.add]]
    refine ((exp_ninf_small (t := Real.exp v - v) ?_).mono (δ := 1 / 2 ^ 46) (by norm_num)).shift (δ := 1 / 2 ^ 46) ?_
    · have := Real.exp_pos v
      have p500 : (2:ℝ) ^ 500 = 2 * 2 ^ 499 := by rw [pow_succ, mul_comm]
      have p0 : (0:ℝ) < 2 ^ 499 := by positivity
      rw [p500] at hv
      generalize (2:ℝ) ^ 499 = M at *
      linarith only [hv, this, p0]
    · rw [neg_sub, sub_self, abs_zero, zero_add]
end
end Rstat
