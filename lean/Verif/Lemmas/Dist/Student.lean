import Verif.Lemmas.Dist.FDist
import Verif.Lemmas.Dist.Laplace
import Verif.Lemmas.Dist.PowerExp
import Verif.Lemmas.Dist.Gamma2
import Mathlib.Analysis.Real.Pi.Bounds
import Mathlib.Analysis.Complex.ExponentialBounds

/-! Student's t law, through the substitution `x = √(ν u/(1-u))` with `u ~ Beta(1/2, ν/2)` on each half line. -/
namespace Rstat.Spec
open MeasureTheory Real Set Filter Topology

/-- normalising constant -/
theorem student_const {n : ℝ} (hn : 0 < n) :
    Real.Gamma ((n + 1) / 2) / (Real.sqrt (n * Real.pi) * Real.Gamma (n / 2)) = 1 / (Real.sqrt n * Beta (1 / 2) (n / 2)) := by
  have g1 := Real.Gamma_pos_of_pos (show 0 < (n + 1) / 2 by positivity)
  have g2 := Real.Gamma_pos_of_pos (show 0 < n / 2 by positivity)
  have s1 : 0 < Real.sqrt n := Real.sqrt_pos.2 hn
  have s2 : 0 < Real.sqrt Real.pi := Real.sqrt_pos.2 Real.pi_pos
  rw [Beta, Real.Gamma_one_half_eq, show 1 / 2 + n / 2 = (n + 1) / 2 by ring, Real.sqrt_mul hn.le]
  generalize Real.Gamma ((n + 1) / 2) = G at *
  generalize Real.Gamma (n / 2) = H at *
  field_simp

theorem student_eq {n : ℝ} (hn : 0 < n) (x : ℝ) :
    studentPDF n x = 1 / (Real.sqrt n * Beta (1 / 2) (n / 2)) * (1 + x ^ 2 / n) ^ (-(n + 1) / 2) := by
  rw [studentPDF, student_const hn]

theorem student_pos {n : ℝ} (hn : 0 < n) (x : ℝ) : 0 < studentPDF n x := by
  rw [student_eq hn]
  have := Beta_pos (show (0:ℝ) < 1 / 2 by norm_num) (show 0 < n / 2 by positivity)
  have : 0 < Real.sqrt n := Real.sqrt_pos.2 hn
  positivity

theorem student_even (n x : ℝ) : studentPDF n (-x) = studentPDF n x := by simp [studentPDF]

theorem student_continuous {n : ℝ} (hn : 0 < n) : Continuous (studentPDF n) := by
  unfold studentPDF
  refine continuous_const.mul (Continuous.rpow_const (by fun_prop) fun x => Or.inl ?_)
  positivity

/-- integrals over the half line -/
theorem student_half {n : ℝ} (hn : 0 < n) (h : ℝ → ℝ) :
    (IntegrableOn (fun x => h x * studentPDF n x) (Ioi 0) ↔
      IntegrableOn (fun u => h (Real.sqrt (n * (u / (1 - u)))) * betaW (1 / 2) (n / 2) u) (Ioo 0 1)) ∧
    ∫ x in Ioi 0, h x * studentPDF n x = 1 / 2 * ∫ u in Ioo 0 1, h (Real.sqrt (n * (u / (1 - u)))) * betaW (1 / 2) (n / 2) u := by
  have hB := Beta_pos (show (0:ℝ) < 1 / 2 by norm_num) (show 0 < n / 2 by positivity)
  have hs : 0 < Real.sqrt n := Real.sqrt_pos.2 hn
  have key := fun h : ℝ → ℝ => transfer (φ := fun u => Real.sqrt (n * (u / (1 - u))))
    (φ' := fun u => n * (1 / (1 - u) ^ 2) / (2 * Real.sqrt (n * (u / (1 - u))))) (f := fun x => if x ≤ 0 then 0 else 2 * studentPDF n x)
    (g := betaW (1 / 2) (n / 2)) (measurableSet_Ioo (a := (0:ℝ)) (b := 1)) (fun u hu => by
        have h0 := hu.1
        have h1 : 0 < 1 - u := by linarith [hu.2]
        have d1 : HasDerivAt (fun u => u / (1 - u)) (1 / (1 - u) ^ 2) u := by
          have := (hasDerivAt_id u).div ((hasDerivAt_id u).const_sub 1) h1.ne'
          refine HasDerivAt.congr_deriv (f := fun u => u / (1 - u)) this ?_
          show (1 * (1 - u) - u * -1) / (1 - u) ^ 2 = _
          congr 1; ring
        exact (d1.const_mul n).sqrt (by positivity))
      (fun u hu v hv e => by
        have h1 : 0 < 1 - u := by linarith [hu.2]
        have h2 : 0 < 1 - v := by linarith [hv.2]
        have hu0 := hu.1
        have hv0 := hv.1
        simp only at e
        rw [Real.sqrt_inj (by positivity) (by positivity)] at e
        have e' := mul_left_cancel₀ hn.ne' e
        rw [div_eq_div_iff h1.ne' h2.ne'] at e'
        linarith)
      (fun u hu => by
        have h0 := hu.1
        have h1 : 0 < 1 - u := by linarith [hu.2]
        have hq : 0 < Real.sqrt (n * (u / (1 - u))) := Real.sqrt_pos.2 (by positivity)
        rw [abs_of_pos (by positivity)]
        try beta_reduce
        rw [if_neg (not_le.2 hq), student_eq hn, Real.sq_sqrt (by positivity), show n * (u / (1 - u)) / n = u / (1 - u) by field_simp,
          show 1 + u / (1 - u) = (1 - u)⁻¹ by field_simp; ring, inv_rpow h1.le, ← rpow_neg h1.le, betaW]
        have e1 : Real.sqrt (n * (u / (1 - u))) = Real.sqrt n * (u ^ (1 / 2 : ℝ) * (1 - u) ^ (-1 / 2 : ℝ)) := by
          rw [Real.sqrt_mul hn.le, Real.sqrt_eq_rpow (u / (1 - u)), div_rpow h0.le h1.le, neg_div, rpow_neg h1.le]; rfl
        have e2 : (1 - u) ^ (n / 2 - 1) * (1 - u) ^ (-1 / 2 : ℝ) * (1 - u) ^ 2 = (1 - u) ^ (-(-(n + 1) / 2)) := by
          rw [← rpow_natCast, ← rpow_add h1, ← rpow_add h1]; congr 1; push_cast; ring
        have e3 : u ^ (1 / 2 - 1 : ℝ) * u ^ (1 / 2 : ℝ) = 1 := by
          rw [← rpow_add h0, show (1 / 2 - 1 + 1 / 2 : ℝ) = 0 by norm_num, rpow_zero]
        have p1 : 0 < u ^ (1 / 2 : ℝ) := rpow_pos_of_pos h0 _
        have p2 : 0 < (1 - u) ^ (-1 / 2 : ℝ) := rpow_pos_of_pos h1 _
        have e3' : u ^ (1 / 2 - 1 : ℝ) = 1 / u ^ (1 / 2 : ℝ) := eq_one_div_of_mul_eq_one_left e3
        rw [e1, ← e2, e3']
        generalize u ^ (1 / 2 : ℝ) = A at *
        generalize (1 - u) ^ (-1 / 2 : ℝ) = C at *
        have hss : Real.sqrt n * Real.sqrt n = n := Real.mul_self_sqrt hn.le
        generalize Real.sqrt n = S at *
        subst hss
        field_simp)
      (by
        refine Eventually.of_forall fun x hx => ?_
        by_contra hne
        have hx0 : 0 < x := by
          by_contra h0
          exact hne (if_pos (not_lt.1 h0))
        refine hx ⟨x ^ 2 / n / (1 + x ^ 2 / n), ⟨by positivity, ?_⟩, ?_⟩
        · rw [div_lt_one (by positivity)]; linarith
        · simp only
          have hz : 0 < x ^ 2 / n := by positivity
          rw [show (x ^ 2 / n / (1 + x ^ 2 / n)) / (1 - x ^ 2 / n / (1 + x ^ 2 / n)) = x ^ 2 / n by generalize x ^ 2 / n = z at hz; field_simp; ring, mul_div_cancel₀ _ hn.ne',
            Real.sqrt_sq hx0.le]) h
  obtain ⟨t1, t2⟩ := key h
  have e : (fun x => h x * if x ≤ 0 then 0 else 2 * studentPDF n x) = (Ioi 0).indicator (fun x => 2 * (h x * studentPDF n x)) := by
    ext x
    rcases le_or_gt x 0 with hx | hx
    · rw [indicator_of_notMem (by simpa using hx), if_pos hx, mul_zero]
    · rw [indicator_of_mem (by simpa using hx), if_neg (not_le.2 hx)]; ring
  rw [e, integrable_indicator_iff measurableSet_Ioi] at t1
  rw [e, integral_indicator measurableSet_Ioi, integral_const_mul] at t2
  constructor
  · rw [← t1]
    constructor
    · intro h; exact Integrable.const_mul h 2
    · intro h
      refine IntegrableOn.congr_fun (Integrable.const_mul h (1 / 2)) (fun x _ => ?_) measurableSet_Ioi
      ring
  · rw [← t2]; ring

theorem student_pow {n : ℝ} (hn : 0 < n) (k : ℕ) {u : ℝ} (hu : u ∈ Ioo (0:ℝ) 1) :
    Real.sqrt (n * (u / (1 - u))) ^ k = n ^ ((k:ℝ) / 2) * (u ^ ((k:ℝ) / 2) * (1 - u) ^ (-(k:ℝ) / 2)) := by
  have h0 := hu.1
  have h1 : 0 < 1 - u := by linarith [hu.2]
  rw [Real.sqrt_eq_rpow, ← rpow_natCast, ← rpow_mul (by positivity), mul_rpow hn.le (by positivity), div_rpow h0.le h1.le, neg_div,
    rpow_neg h1.le, show 1 / 2 * (k:ℝ) = k / 2 by ring]
  rfl

/-- moments over the half line exist exactly below `ν` -/
theorem student_half_moment {n : ℝ} (hn : 0 < n) {k : ℕ} (hk : (k:ℝ) < n) :
    IntegrableOn (fun x => x ^ k * studentPDF n x) (Ioi 0) ∧
    ∫ x in Ioi 0, x ^ k * studentPDF n x = 1 / 2 * (n ^ ((k:ℝ) / 2) * (Beta (1 / 2 + k / 2) (n / 2 - k / 2) / Beta (1 / 2) (n / 2))) := by
  obtain ⟨h1, h2⟩ := student_half hn (fun x => x ^ k)
  obtain ⟨b1, b2⟩ := beta_exp (a := 1 / 2) (b := n / 2) (p := (k:ℝ) / 2) (q := -(k:ℝ) / 2) (by positivity) (by linarith)
  have e : ∀ u ∈ Ioo (0:ℝ) 1, n ^ ((k:ℝ) / 2) * (u ^ ((k:ℝ) / 2) * (1 - u) ^ (-(k:ℝ) / 2) * betaW (1 / 2) (n / 2) u) =
      Real.sqrt (n * (u / (1 - u))) ^ k * betaW (1 / 2) (n / 2) u := fun u hu => by rw [student_pow hn k hu]; ring
  rw [h1, h2]
  refine ⟨IntegrableOn.congr_fun (b1.const_mul _) e measurableSet_Ioo, ?_⟩
  rw [← setIntegral_congr_fun measurableSet_Ioo e, integral_const_mul, b2, show n / 2 + -(k:ℝ) / 2 = n / 2 - k / 2 by ring]

theorem student_half_infinite {n : ℝ} (hn : 0 < n) {k : ℕ} (hk : n ≤ k) : ¬ IntegrableOn (fun x => x ^ k * studentPDF n x) (Ioi 0) := by
  intro h
  have hB := Beta_pos (show (0:ℝ) < 1 / 2 by norm_num) (show 0 < n / 2 by positivity)
  have h2 := ((student_half hn (fun x => x ^ k)).1.1 h)
  have h3 := Integrable.const_mul h2 (Beta (1 / 2) (n / 2) / n ^ ((k:ℝ) / 2))
  have h4 : IntegrableOn (fun u : ℝ => (fun w : ℝ => w ^ (n / 2 - k / 2 - 1) * (1 - w) ^ (1 / 2 + (k:ℝ) / 2 - 1)) (1 - u)) (Ioo 0 1) := by
    refine IntegrableOn.congr_fun h3 (fun u hu => ?_) measurableSet_Ioo
    have h1 : 0 < 1 - u := by linarith [hu.2]
    have hp : 0 < n ^ ((k:ℝ) / 2) := rpow_pos_of_pos hn _
    simp only
    rw [student_pow hn k hu, sub_sub_cancel, betaW, show n / 2 - (k:ℝ) / 2 - 1 = -(k:ℝ) / 2 + (n / 2 - 1) by ring,
      show 1 / 2 + (k:ℝ) / 2 - 1 = (k:ℝ) / 2 + (1 / 2 - 1) by ring, rpow_add h1, rpow_add hu.1]
    field_simp
  exact beta_kernel_not_integrable (by linarith) ((unit_reflect _).1.1 h4)

/-- raw moments: odd ones vanish, even ones are twice the half-line ones -/
theorem student_raw {n : ℝ} (hn : 0 < n) {k : ℕ} (hk : (k:ℝ) < n) :
    Integrable (fun x => x ^ k * studentPDF n x) ∧
    ∫ x, x ^ k * studentPDF n x = (1 + (-1) ^ k) * (1 / 2 * (n ^ ((k:ℝ) / 2) * (Beta (1 / 2 + k / 2) (n / 2 - k / 2) / Beta (1 / 2) (n / 2)))) := by
  obtain ⟨h1, h2⟩ := student_half_moment hn hk
  have e : (fun x : ℝ => (-x) ^ k * studentPDF n (-x)) = fun x => (-1) ^ k * (x ^ k * studentPDF n x) := by
    ext x; rw [student_even, neg_pow]; ring
  obtain ⟨t1, t2⟩ := two_sided (h := fun x => x ^ k * studentPDF n x) h1 (by simp only [e]; exact Integrable.const_mul h1 _)
  refine ⟨t1, ?_⟩
  rw [t2]
  simp only [e]
  rw [integral_const_mul, h2]; ring

theorem student_central_infinite {n : ℝ} (hn : 0 < n) (hi : Integrable (studentPDF n)) {k : ℕ} (hk : n ≤ k) (m v : ℝ) :
    ¬ HasCentral (studentPDF n) m k v := fun h =>
  student_half_infinite hn hk (raw_integrable_of_central (fun x => (student_pos hn x).le) hi h.1).integrableOn

theorem IsCDF.of_density {f : ℝ → ℝ} (h0 : ∀ x, 0 ≤ f x) (hi : Integrable f) (h1 : ∫ x, f x = 1) :
    IsCDF (fun x => ∫ t in Iic x, f t) ∧ IsDensityOf f (fun x => ∫ t in Iic x, f t) := by
  have hD : IsDensityOf f (fun x => ∫ t in Iic x, f t) := ⟨h0, hi, h1, fun x => rfl⟩
  have hp := hD.isProbability
  have e : (fun x => ∫ t in Iic x, f t) = ProbabilityTheory.cdf (Law f) := by ext x; exact (hD.cdf_law x).symm
  refine ⟨?_, hD⟩
  rw [e]
  exact ⟨ProbabilityTheory.monotone_cdf _, fun x => (ProbabilityTheory.cdf (Law f)).right_continuous x, ProbabilityTheory.tendsto_cdf_atBot _,
    ProbabilityTheory.tendsto_cdf_atTop _⟩

theorem student_density {n : ℝ} (hn : 0 < n) : IsCDF (studentCDF n) ∧ IsDensityOf (studentPDF n) (studentCDF n) := by
  obtain ⟨h1, h2⟩ := student_raw hn (k := 0) (by simpa using hn)
  have hB := (Beta_pos (show (0:ℝ) < 1 / 2 by norm_num) (show 0 < n / 2 by positivity)).ne'
  refine IsCDF.of_density (fun x => (student_pos hn x).le) (by simpa using h1) ?_
  simp only [pow_zero, one_mul, Nat.cast_zero, zero_div, rpow_zero, add_zero, sub_zero, div_self hB] at h2
  rw [h2]; norm_num

theorem student_moments {n : ℝ} (hn : 0 < n) :
    (1 < n → HasMean (studentPDF n) 0) ∧ (2 < n → HasMeanVar (studentPDF n) 0 (n / (n - 2))) ∧
    (3 < n → HasSkew (studentPDF n) 0) ∧ (4 < n → HasKurt (studentPDF n) (6 / (n - 4) + 3)) := by
  have hB := (Beta_pos (show (0:ℝ) < 1 / 2 by norm_num) (show 0 < n / 2 by positivity)).ne'
  have m1 : 1 < n → HasMean (studentPDF n) 0 := fun h => by
    obtain ⟨h1, h2⟩ := student_raw hn (k := 1) (by simpa using h)
    exact ⟨by simpa using h1, by simpa using h2⟩
  have m2 : 2 < n → HasCentral (studentPDF n) 0 2 (n / (n - 2)) := fun h => by
    obtain ⟨h1, h2⟩ := student_raw hn (k := 2) (by simpa using h)
    refine ⟨by simpa using h1, ?_⟩
    simp only [sub_zero]
    rw [h2]
    have e := Beta_shift' (a := 1 / 2) (b := n / 2) (by norm_num) (by linarith)
    rw [show (1:ℝ) / 2 + ((2:ℕ):ℝ) / 2 = 1 / 2 + 1 by norm_num, show n / 2 - ((2:ℕ):ℝ) / 2 = n / 2 - 1 by norm_num, e,
      show ((2:ℕ):ℝ) / 2 = 1 by norm_num, rpow_one]
    have : n - 2 ≠ 0 := by linarith
    rw [show n / 2 - 1 = (n - 2) / 2 by ring]
    field_simp; norm_num
  have m3 : 3 < n → HasCentral (studentPDF n) 0 3 0 := fun h => by
    obtain ⟨h1, h2⟩ := student_raw hn (k := 3) (by simpa using h)
    refine ⟨by simpa using h1, ?_⟩
    simp only [sub_zero]
    rw [h2]; norm_num
  have m4 : 4 < n → HasCentral (studentPDF n) 0 4 (3 * n ^ 2 / ((n - 2) * (n - 4))) := fun h => by
    obtain ⟨h1, h2⟩ := student_raw hn (k := 4) (by simpa using h)
    refine ⟨by simpa using h1, ?_⟩
    simp only [sub_zero]
    rw [h2]
    have e := Beta_shift' (a := 1 / 2) (b := n / 2) (by norm_num) (by linarith)
    have e' := Beta_shift' (a := 1 / 2 + 1) (b := n / 2 - 1) (by norm_num) (by linarith)
    rw [show (1:ℝ) / 2 + ((4:ℕ):ℝ) / 2 = 1 / 2 + 1 + 1 by norm_num, show n / 2 - ((4:ℕ):ℝ) / 2 = n / 2 - 1 - 1 by norm_num; ring, e', e,
      show ((4:ℕ):ℝ) / 2 = 2 by norm_num, rpow_two]
    have : n - 2 ≠ 0 := by linarith
    have : n - 4 ≠ 0 := by linarith
    rw [show n / 2 - 1 = (n - 2) / 2 by ring, show (n - 2) / 2 - 1 = (n - 4) / 2 by ring]
    field_simp; norm_num
  have v : 2 < n → 0 < n / (n - 2) := fun h => div_pos hn (by linarith)
  refine ⟨m1, fun h => ⟨m1 (by linarith), m2 h⟩, fun h => ⟨0, _, v (by linarith), ⟨m1 (by linarith), m2 (by linarith)⟩, ?_⟩,
    fun h => ⟨0, _, v (by linarith), ⟨m1 (by linarith), m2 (by linarith)⟩, ?_⟩⟩
  · rw [zero_mul]; exact m3 h
  · refine (m4 h).congr_val ?_
    have : n - 2 ≠ 0 := by linarith
    have : n - 4 ≠ 0 := by linarith
    field_simp; ring

/-- the unique maximum is at zero -/
theorem student_mode {n : ℝ} (hn : 0 < n) : ∀ x, x ≠ 0 → studentPDF n x < studentPDF n 0 := fun x hx => by
  rw [student_eq hn, student_eq hn]
  have hB := Beta_pos (show (0:ℝ) < 1 / 2 by norm_num) (show 0 < n / 2 by positivity)
  have hs : 0 < Real.sqrt n := Real.sqrt_pos.2 hn
  refine mul_lt_mul_of_pos_left ?_ (by positivity)
  have hx2 : 0 < x ^ 2 := by positivity
  rw [show (1 + (0:ℝ) ^ 2 / n) = 1 by simp, one_rpow]
  refine rpow_lt_one_of_one_lt_of_neg ?_ (by linarith)
  have := div_pos hx2 hn
  linarith

/-- half of the mass lies below zero -/
theorem student_cdf_zero {n : ℝ} (hn : 0 < n) : studentCDF n 0 = 1 / 2 := by
  obtain ⟨h1, h2⟩ := student_half_moment hn (k := 0) (by simpa using hn)
  have hB := (Beta_pos (show (0:ℝ) < 1 / 2 by norm_num) (show 0 < n / 2 by positivity)).ne'
  have hD := (student_density hn).2
  simp only [pow_zero, one_mul, Nat.cast_zero, zero_div, rpow_zero, add_zero, sub_zero, div_self hB] at h2
  have := intervalIntegral.integral_Iic_add_Ioi (b := 0) hD.integrable.integrableOn hD.integrable.integrableOn
  rw [hD.total, h2] at this
  rw [studentCDF]; linarith

theorem student_cdf_eq {n : ℝ} (hn : 0 < n) (x : ℝ) : studentCDF n x = 1 / 2 + ∫ t in (0:ℝ)..x, studentPDF n t := by
  have hi := (student_density hn).2.integrable
  have := intervalIntegral.integral_Iic_sub_Iic (a := 0) (b := x) (f := studentPDF n) (μ := volume) hi.integrableOn hi.integrableOn
  rw [← this, ← student_cdf_zero hn]
  simp only [studentCDF]; ring

theorem student_cdf_strictMono {n : ℝ} (hn : 0 < n) : StrictMono (studentCDF n) := fun x y hxy => by
  rw [student_cdf_eq hn, student_cdf_eq hn]
  have hc := student_continuous hn
  have e := intervalIntegral.integral_add_adjacent_intervals (hc.intervalIntegrable (μ := volume) 0 x) (hc.intervalIntegrable x y)
  have p := intervalIntegral.intervalIntegral_pos_of_pos (hc.intervalIntegrable (μ := volume) x y) (student_pos hn) hxy
  linarith

/-- the distribution function in terms of Gauss's hypergeometric function -/
theorem student_cdf_hyp {n : ℝ} (hn : 0 < n) (x : ℝ) : studentCDF n x =
    1 / 2 + x * (Real.Gamma ((n + 1) / 2) / (Real.sqrt (n * Real.pi) * Real.Gamma (n / 2))) * hyp2f1 (1 / 2) ((n + 1) / 2) (3 / 2) (-x * x / n) := by
  rw [student_cdf_eq hn]
  congr 1
  have h1 : ∫ t in (0:ℝ)..x, studentPDF n t = x * ∫ s in (0:ℝ)..1, studentPDF n (x * s) := by
    rcases eq_or_ne x 0 with rfl | hx
    · simp
    · rw [intervalIntegral.integral_comp_mul_left _ hx, smul_eq_mul, mul_zero, mul_one, ← mul_assoc, mul_inv_cancel₀ hx, one_mul]
  have h2 : ∫ s in (0:ℝ)..1, studentPDF n (x * s) = 1 / 2 * ∫ w in (0:ℝ)..1, w ^ (-(1 / 2) : ℝ) * studentPDF n (x * Real.sqrt w) := by
    rw [intervalIntegral.integral_of_le zero_le_one, intervalIntegral.integral_of_le zero_le_one, integral_Ioc_eq_integral_Ioo,
      integral_Ioc_eq_integral_Ioo]
    have him : (fun s : ℝ => s ^ 2) '' Ioo 0 1 = Ioo 0 1 := by
      ext w
      constructor
      · rintro ⟨s, hs, rfl⟩
        have h0 := hs.1
        have h1 := hs.2
        exact ⟨by positivity, by nlinarith⟩
      · intro hw
        have h0 := hw.1
        exact ⟨Real.sqrt w, ⟨Real.sqrt_pos.2 h0, by rw [Real.sqrt_lt' one_pos]; simpa using hw.2⟩, Real.sq_sqrt h0.le⟩
    have := integral_image_eq_integral_abs_deriv_smul (s := Ioo (0:ℝ) 1) (f := fun s : ℝ => s ^ 2) (f' := fun s => 2 * s) measurableSet_Ioo
      (fun s _ => by simpa using (hasDerivAt_pow 2 s).hasDerivWithinAt)
      (fun s hs t ht e => by
        have h0 := hs.1
        have h1 := ht.1
        exact (pow_left_inj₀ h0.le h1.le two_ne_zero).1 e)
      (fun w => w ^ (-(1 / 2) : ℝ) * studentPDF n (x * Real.sqrt w))
    rw [him] at this
    rw [this, ← integral_const_mul]
    refine setIntegral_congr_fun measurableSet_Ioo fun s hs => ?_
    have h0 := hs.1
    rw [abs_of_pos (by positivity), smul_eq_mul, Real.sqrt_sq h0.le, ← rpow_natCast s 2, ← rpow_mul h0.le,
      show ((2:ℕ):ℝ) * -(1 / 2) = -1 by norm_num, rpow_neg_one]
    field_simp
  rw [h1, h2, hyp2f1, show (3 / 2 - 1 / 2 : ℝ) = 1 by norm_num, Real.Gamma_one, show (3 / 2 : ℝ) = 1 / 2 + 1 by norm_num,
    Real.Gamma_add_one (by norm_num), Real.Gamma_one_half_eq, mul_one]
  have hp : Real.sqrt Real.pi ≠ 0 := (Real.sqrt_pos.2 Real.pi_pos).ne'
  rw [show 1 / 2 * Real.sqrt Real.pi / Real.sqrt Real.pi = 1 / 2 by field_simp]
  have e : ∫ w in (0:ℝ)..1, w ^ (-(1 / 2) : ℝ) * studentPDF n (x * Real.sqrt w) =
      (Real.Gamma ((n + 1) / 2) / (Real.sqrt (n * Real.pi) * Real.Gamma (n / 2))) *
        ∫ t in (0:ℝ)..1, t ^ (1 / 2 - 1 : ℝ) * (1 - t) ^ (1 - 1 : ℝ) * (1 - -x * x / n * t) ^ (-((n + 1) / 2)) := by
    rw [← intervalIntegral.integral_const_mul]
    refine intervalIntegral.integral_congr fun t ht => ?_
    rw [uIcc_of_le zero_le_one] at ht
    rw [studentPDF, mul_pow, Real.sq_sqrt ht.1, sub_self, rpow_zero, show (1 / 2 - 1 : ℝ) = -(1 / 2) by norm_num,
      show 1 - -x * x / n * t = 1 + x ^ 2 * t / n by ring, neg_div]
    ring
  rw [e]; ring

/-- differential entropy -/
theorem student_entropy {n : ℝ} (hn : 0 < n) : HasEntropy (studentPDF n)
    ((n + 1) / 2 * (digamma ((n + 1) / 2) - digamma (n / 2)) + Real.log (Real.sqrt n * Beta (n / 2) (1 / 2))) := by
  have hB := Beta_pos (show (0:ℝ) < 1 / 2 by norm_num) (show 0 < n / 2 by positivity)
  have hs : 0 < Real.sqrt n := Real.sqrt_pos.2 hn
  obtain ⟨h1, h2⟩ := student_half hn (fun x => Real.log (studentPDF n x))
  obtain ⟨_, ⟨i2, v2⟩, ⟨i3, v3⟩⟩ := beta_exp_log (show (0:ℝ) < 1 / 2 by norm_num) (show 0 < n / 2 by positivity)
  have e : ∀ u ∈ Ioo (0:ℝ) 1, -Real.log (Real.sqrt n * Beta (1 / 2) (n / 2)) * betaW (1 / 2) (n / 2) u +
      (n + 1) / 2 * (Real.log (1 - u) * betaW (1 / 2) (n / 2) u) =
      Real.log (studentPDF n (Real.sqrt (n * (u / (1 - u))))) * betaW (1 / 2) (n / 2) u := fun u hu => by
    have h0 := hu.1
    have h1 : 0 < 1 - u := by linarith [hu.2]
    rw [student_eq hn, Real.sq_sqrt (by positivity), show n * (u / (1 - u)) / n = u / (1 - u) by field_simp,
      show 1 + u / (1 - u) = (1 - u)⁻¹ by field_simp; ring, Real.log_mul (x := 1 / (Real.sqrt n * Beta (1 / 2) (n / 2))) (by positivity) (by positivity), Real.log_rpow (by positivity),
      Real.log_inv, one_div (Real.sqrt n * Beta (1 / 2) (n / 2)), Real.log_inv]
    ring
  have i4 := IntegrableOn.congr_fun (Integrable.add (Integrable.const_mul i3 (-Real.log (Real.sqrt n * Beta (1 / 2) (n / 2))))
    (Integrable.const_mul i2 ((n + 1) / 2))) e measurableSet_Ioo
  rw [← setIntegral_congr_fun measurableSet_Ioo e, integral_add (Integrable.const_mul i3 _) (Integrable.const_mul i2 _), integral_const_mul,
    integral_const_mul, v2, v3] at h2
  have hi := h1.2 i4
  obtain ⟨t1, t2⟩ := two_sided (h := fun x => Real.log (studentPDF n x) * studentPDF n x) hi (by simpa only [student_even] using hi)
  simp only [student_even] at t2
  refine ⟨by simpa only [mul_comm] using t1, ?_⟩
  simp only [mul_comm (studentPDF n _) (Real.log _)]
  rw [t2, h2, Beta_symm (n / 2), show 1 / 2 + n / 2 = (n + 1) / 2 by ring]
  ring

/-- `√ν B(ν/2, 1/2) ≥ √(2π)` -/
theorem sqrt_mul_Beta_ge {n : ℝ} (hn : 0 < n) : Real.sqrt (2 * Real.pi) ≤ Real.sqrt n * Beta (n / 2) (1 / 2) := by
  have g0 := Real.Gamma_pos_of_pos (show 0 < n / 2 by positivity)
  have g1 := Real.Gamma_pos_of_pos (show 0 < n / 2 + 1 / 2 by positivity)
  have hc := Real.Gamma_mul_add_mul_le_rpow_Gamma_mul_rpow_Gamma (s := n / 2) (t := n / 2 + 1) (a := 1 / 2) (b := 1 / 2) (by positivity)
    (by positivity) (by norm_num) (by norm_num) (by norm_num)
  rw [show 1 / 2 * (n / 2) + 1 / 2 * (n / 2 + 1) = n / 2 + 1 / 2 by ring, Real.Gamma_add_one (by positivity),
    mul_rpow (by positivity) g0.le] at hc
  have e : Real.Gamma (n / 2) ^ (1 / 2 : ℝ) * ((n / 2) ^ (1 / 2 : ℝ) * Real.Gamma (n / 2) ^ (1 / 2 : ℝ)) = Real.sqrt (n / 2) * Real.Gamma (n / 2) := by
    rw [← Real.sqrt_eq_rpow, ← Real.sqrt_eq_rpow]
    have := Real.mul_self_sqrt g0.le
    rw [show Real.sqrt (Real.Gamma (n / 2)) * (Real.sqrt (n / 2) * Real.sqrt (Real.Gamma (n / 2))) =
      Real.sqrt (n / 2) * (Real.sqrt (Real.Gamma (n / 2)) * Real.sqrt (Real.Gamma (n / 2))) by ring, this]
  rw [e] at hc
  rw [Beta, Real.Gamma_one_half_eq, ← mul_div_assoc, le_div_iff₀ g1, Real.sqrt_mul zero_le_two]
  have s2 : Real.sqrt 2 * Real.sqrt (n / 2) = Real.sqrt n := by rw [← Real.sqrt_mul zero_le_two]; congr 1; ring
  calc Real.sqrt 2 * Real.sqrt Real.pi * Real.Gamma (n / 2 + 1 / 2)
      ≤ Real.sqrt 2 * Real.sqrt Real.pi * (Real.sqrt (n / 2) * Real.Gamma (n / 2)) := mul_le_mul_of_nonneg_left hc (by positivity)
    _ = Real.sqrt 2 * Real.sqrt (n / 2) * (Real.Gamma (n / 2) * Real.sqrt Real.pi) := by ring
    _ = _ := by rw [s2]

theorem Gamma_half_step {x : ℝ} (hx : 3 / 2 ≤ x) : Real.Gamma x ≤ Real.Gamma (x + 1 / 2) := by
  have hm := Real.Gamma_strictMonoOn_Ici.monotoneOn
  have h2 : 1 ≤ Real.Gamma (x + 1 / 2) := by
    have := hm (show (2:ℝ) ∈ Ici 2 by simp) (show x + 1 / 2 ∈ Ici 2 by show 2 ≤ x + 1 / 2; linarith) (by linarith)
    rwa [Real.Gamma_two] at this
  rcases le_or_gt 2 x with h | h
  · exact hm h (show x + 1 / 2 ∈ Ici 2 by show 2 ≤ x + 1 / 2; linarith) (by linarith)
  · refine le_trans ?_ h2
    have := Real.convexOn_Gamma.2 (show (1:ℝ) ∈ Ioi 0 by simp) (show (2:ℝ) ∈ Ioi 0 by simp) (show 0 ≤ 2 - x by linarith)
      (show 0 ≤ x - 1 by linarith) (by ring)
    simp only [smul_eq_mul, Real.Gamma_one, Real.Gamma_two] at this
    rw [show (2 - x) * 1 + (x - 1) * 2 = x by ring] at this
    linarith

/-- the entropy of the t law is smaller than `(ν+1)/2 (Γ((ν+1)/2) - Γ(ν/2)) + √ν B(ν/2, 1/2)` for `ν ≥ 3` -/
theorem student_entropy_lt {n : ℝ} (hn : 3 ≤ n) :
    (n + 1) / 2 * (digamma ((n + 1) / 2) - digamma (n / 2)) + Real.log (Real.sqrt n * Beta (n / 2) (1 / 2)) <
    (n + 1) / 2 * (Real.Gamma ((n + 1) / 2) - Real.Gamma (n / 2)) + Real.sqrt n * Beta (n / 2) (1 / 2) := by
  have hn0 : 0 < n := by linarith
  have hy := sqrt_mul_Beta_ge hn0
  have hs : (2.5 : ℝ) ≤ Real.sqrt (2 * Real.pi) := by
    apply Real.le_sqrt_of_sq_le
    have := Real.pi_gt_d2
    norm_num at this ⊢; linarith
  generalize Real.sqrt n * Beta (n / 2) (1 / 2) = y at *
  have hG := Gamma_half_step (x := n / 2) (by linarith)
  rw [show n / 2 + 1 / 2 = (n + 1) / 2 by ring] at hG
  have hd : digamma ((n + 1) / 2) - digamma (n / 2) ≤ 2 / n := by
    have h1 := digamma_lt (a := (n + 1) / 2) (b := n / 2 + 1) (by positivity) (by linarith)
    rw [digamma_add_one (by positivity)] at h1
    have : 1 / (n / 2) = 2 / n := by field_simp
    linarith
  have hd2 : (n + 1) / 2 * (digamma ((n + 1) / 2) - digamma (n / 2)) ≤ 4 / 3 := by
    calc _ ≤ (n + 1) / 2 * (2 / n) := mul_le_mul_of_nonneg_left hd (by positivity)
      _ = (n + 1) / n := by field_simp
      _ ≤ 4 / 3 := by rw [div_le_div_iff₀ hn0 (by norm_num)]; linarith
  have hg2 : 0 ≤ (n + 1) / 2 * (Real.Gamma ((n + 1) / 2) - Real.Gamma (n / 2)) := mul_nonneg (by positivity) (by linarith)
  have hy0 : 0 < y := by linarith
  have hl : Real.log y ≤ y / Real.exp 1 := by
    have := Real.log_le_sub_one_of_pos (show 0 < y / Real.exp 1 by positivity)
    rw [Real.log_div hy0.ne' (Real.exp_pos 1).ne', Real.log_exp] at this
    linarith
  have he : y / Real.exp 1 ≤ y / 2.7 := div_le_div_of_nonneg_left hy0.le (by norm_num) (by have := Real.exp_one_gt_d9; linarith)
  have : (2.5:ℝ) ≤ y := by linarith
  have h3 : y / 2.7 ≤ y - 4 / 3 - 0.1 := by
    rw [div_le_iff₀ (by norm_num)]; nlinarith
  linarith
end Rstat.Spec
