import Verif.Lemmas.Dist.GenGamma
import Verif.Spec.GammaFamilies
import Mathlib.NumberTheory.Harmonic.GammaDeriv
import Mathlib.NumberTheory.Harmonic.EulerMascheroni
import Mathlib.Analysis.Complex.ExponentialBounds

/-! The Chi and inverse Gamma laws as scaled powers of a Gamma variable. -/
namespace Rstat.Spec
open MeasureTheory Filter Topology Set Real

theorem halfCDF_scale {G : ℝ → ℝ} {s x : ℝ} (hs : 0 < s) : halfCDF 0 G ((x - 0) / s) = if x ≤ 0 then 0 else G (x / s) := by
  unfold halfCDF
  rw [sub_zero]
  have : x / s ≤ 0 ↔ x ≤ 0 := by rw [div_le_iff₀ hs, zero_mul]
  simp only [this]

theorem chi_locScale {k : ℝ} : chiPDF k = locScale 0 (√2) (ggPDF (k / 2) 2) := by
  ext x
  have h2 : 0 < √(2:ℝ) := by positivity
  unfold locScale ggPDF chiPDF
  have hle : (x - 0) / √2 ≤ 0 ↔ x ≤ 0 := by rw [sub_zero, div_le_iff₀ h2, zero_mul]
  simp only [hle]
  split_ifs with hx
  · simp
  · have hx : 0 < x := not_le.1 hx
    have e1 : ((x - 0) / √2) ^ (2:ℝ) = x ^ 2 / 2 := by
      rw [Real.rpow_two, sub_zero, div_pow, Real.sq_sqrt zero_le_two]
    have e2 : ((x - 0) / √2) ^ ((2:ℝ) * (k / 2) - 1) = x ^ (k - 1) / √2 ^ (k - 1) := by
      rw [sub_zero, show (2:ℝ) * (k / 2) - 1 = k - 1 by ring, Real.div_rpow hx.le h2.le]
    have e3 : (2:ℝ) ^ (1 - k / 2) = 2 / (√2 ^ (k - 1) * √2) := by
      rw [← Real.rpow_add_one h2.ne', sub_add_cancel, Real.sqrt_eq_rpow, ← Real.rpow_mul zero_le_two, Real.rpow_sub two_pos,
        Real.rpow_one]; congr 2; ring
    have hp : 0 < √(2:ℝ) ^ (k - 1) := Real.rpow_pos_of_pos h2 _
    rw [e1, e2, e3, neg_div, abs_of_pos two_pos]
    generalize Real.Gamma (k / 2) = G
    field_simp

theorem chi_density {k : ℝ} (hk : 0 < k) : IsCDF (chiCDF k) ∧ IsDensityOf (chiPDF k) (chiCDF k) := by
  have h2 : 0 < √(2:ℝ) := by positivity
  obtain ⟨h1, hd⟩ := gg_density_pos (a := k / 2) (p := 2) (by positivity) two_pos
  have e : chiCDF k = fun x => halfCDF 0 (fun x => gammaP (k / 2) (x ^ (2:ℝ))) ((x - 0) / √2) := by
    ext x
    rw [halfCDF_scale h2, chiCDF, Real.rpow_two, div_pow, Real.sq_sqrt zero_le_two]
  rw [e, chi_locScale]
  exact ⟨locScale_isCDF h2 h1, locScale_density h2 hd⟩

theorem chi_raw {k : ℝ} (hk : 0 < k) (n : ℕ) :
    HasCentral (chiPDF k) 0 n (√2 ^ n * (Real.Gamma ((k + n) / 2) / Real.Gamma (k / 2))) := by
  have h2 : 0 < √(2:ℝ) := by positivity
  have h := locScale_central (m := 0) h2 (gg_raw (a := k / 2) (p := 2) two_ne_zero (k := n) (by positivity))
  rw [chi_locScale]
  rw [mul_zero, add_zero, show k / 2 + n / 2 = (k + n) / 2 by ring] at h
  exact h

/-- mean and raw moments 2–4 of the Chi law -/
theorem chi_raws {k : ℝ} (hk : 0 < k) :
    HasMean (chiPDF k) (√2 * Real.Gamma ((k + 1) / 2) / Real.Gamma (k / 2)) ∧
    HasCentral (chiPDF k) 0 2 k ∧
    HasCentral (chiPDF k) 0 3 ((k + 1) * (√2 * Real.Gamma ((k + 1) / 2) / Real.Gamma (k / 2))) ∧
    HasCentral (chiPDF k) 0 4 (k * (k + 2)) := by
  have hG := Real.Gamma_pos_of_pos (by positivity : 0 < k / 2)
  have s2 : √(2:ℝ) ^ 2 = 2 := Real.sq_sqrt zero_le_two
  have g2 : Real.Gamma ((k + 2) / 2) = k / 2 * Real.Gamma (k / 2) := by
    rw [← Real.Gamma_add_one (by positivity)]; congr 1; ring
  have g3 : Real.Gamma ((k + 3) / 2) = (k + 1) / 2 * Real.Gamma ((k + 1) / 2) := by
    rw [← Real.Gamma_add_one (by positivity)]; congr 1; ring
  have g4 : Real.Gamma ((k + 4) / 2) = (k + 2) / 2 * (k / 2 * Real.Gamma (k / 2)) := by
    rw [← g2, ← Real.Gamma_add_one (by positivity)]; congr 1; ring
  refine ⟨?_, ?_, ?_, ?_⟩
  · rw [hasMean_iff_raw]
    exact (chi_raw hk 1).congr_val (by push_cast; ring)
  · refine (chi_raw hk 2).congr_val ?_
    push_cast; rw [s2, g2]; field_simp
  · refine (chi_raw hk 3).congr_val ?_
    push_cast; rw [pow_succ, s2, g3]; ring
  · refine (chi_raw hk 4).congr_val ?_
    push_cast; rw [show √(2:ℝ) ^ 4 = (√2 ^ 2) ^ 2 by ring, s2, g4]; field_simp

theorem chi_entropy {k : ℝ} (hk : 0 < k) :
    HasEntropy (chiPDF k) (Real.log (Real.Gamma (k / 2)) + 1 / 2 * (k - Real.log 2 - (k - 1) * digamma (k / 2))) := by
  have h2 : 0 < √(2:ℝ) := by positivity
  have ha : 0 < k / 2 := by positivity
  have h := locScale_entropy (m := 0) h2 (gg_density_pos ha two_pos).2 (gg_entropy ha two_ne_zero)
  rw [chi_locScale]
  rw [Real.log_sqrt zero_le_two, abs_of_pos two_pos] at h
  have e : k / 2 + Real.log (Real.Gamma (k / 2)) - Real.log 2 - (k / 2 - 1 / 2) * digamma (k / 2) + Real.log 2 / 2 =
    Real.log (Real.Gamma (k / 2)) + 1 / 2 * (k - Real.log 2 - (k - 1) * digamma (k / 2)) := by ring
  rw [← e]; exact h

theorem locScale_mode {g : ℝ → ℝ} {s c : ℝ} (hs : 0 < s) (h : IsMode g c) : IsMode (locScale 0 s g) (s * c) := by
  intro x
  unfold locScale
  have e : (s * c - 0) / s = c := by field_simp; ring
  rw [e]
  exact div_le_div_of_nonneg_right (h _) hs.le

theorem chi_mode {k : ℝ} (hk : 1 < k) : IsMode (chiPDF k) (√(k - 1)) := by
  have h2 : 0 < √(2:ℝ) := by positivity
  have h := locScale_mode h2 (gg_mode (a := k / 2) (p := 2) (by linarith) two_ne_zero (by linarith))
  rw [← chi_locScale] at h
  have e : √2 * (k / 2 - 1 / 2) ^ ((1:ℝ) / 2) = √(k - 1) := by
    rw [← Real.sqrt_eq_rpow, ← Real.sqrt_mul zero_le_two]; congr 1; ring
  rwa [e] at h

/-- for one degree of freedom the density decreases on the support -/
theorem chi_one_antitone : AntitoneOn (chiPDF 1) (Ioi 0) := by
  intro x hx y hy hxy
  have hx : 0 < x := hx
  have hy : 0 < y := hy
  have hG := Real.Gamma_pos_of_pos (show (0:ℝ) < 1 / 2 by norm_num)
  rw [chiPDF, chiPDF, if_neg (not_le.2 hx), if_neg (not_le.2 hy), sub_self, Real.rpow_zero, Real.rpow_zero]
  have : rexp (-y ^ 2 / 2) ≤ rexp (-x ^ 2 / 2) := Real.exp_le_exp.2 (by nlinarith)
  gcongr

theorem invGamma_locScale {a b : ℝ} (hb : 0 < b) : invGammaPDF a b = locScale 0 b (ggPDF a (-1)) := by
  ext x
  unfold locScale ggPDF invGammaPDF
  have hle : (x - 0) / b ≤ 0 ↔ x ≤ 0 := by rw [sub_zero, div_le_iff₀ hb, zero_mul]
  simp only [hle]
  split_ifs with hx
  · simp
  · have hx : 0 < x := not_le.1 hx
    rw [sub_zero, Real.rpow_neg_one, inv_div, abs_neg, abs_one, Real.div_rpow hx.le hb.le, neg_div,
      show (-1 : ℝ) * a - 1 = -a - 1 by ring]
    have e : b ^ (-a - 1) = (b ^ a)⁻¹ / b := by rw [Real.rpow_sub_one hb.ne', Real.rpow_neg hb.le]
    have hp : 0 < b ^ a := Real.rpow_pos_of_pos hb _
    rw [e]
    generalize Real.Gamma a = G
    field_simp

theorem invGamma_density {a b : ℝ} (ha : 0 < a) (hb : 0 < b) :
    IsCDF (invGammaCDF a b) ∧ IsDensityOf (invGammaPDF a b) (invGammaCDF a b) := by
  obtain ⟨h1, hd⟩ := gg_density_neg (a := a) (p := -1) ha (by norm_num)
  have e : invGammaCDF a b = fun x => halfCDF 0 (fun x => 1 - gammaP a (x ^ (-1:ℝ))) ((x - 0) / b) := by
    ext x
    rw [halfCDF_scale hb, invGammaCDF, Real.rpow_neg_one, inv_div]
  rw [e, invGamma_locScale hb]
  exact ⟨locScale_isCDF hb h1, locScale_density hb hd⟩

theorem Gamma_pred {a : ℝ} (h : a - 1 ≠ 0) : Real.Gamma a = (a - 1) * Real.Gamma (a - 1) := by
  rw [← Real.Gamma_add_one h, sub_add_cancel]

theorem invGamma_raw {a b : ℝ} (hb : 0 < b) {n : ℕ} (hn : (n : ℝ) < a) :
    HasCentral (invGammaPDF a b) 0 n (b ^ n * (Real.Gamma (a - n) / Real.Gamma a)) := by
  have h := locScale_central (m := 0) hb (gg_raw (a := a) (p := -1) (by norm_num) (k := n) (by rw [div_neg, div_one]; linarith))
  rw [invGamma_locScale hb]
  rw [mul_zero, add_zero, div_neg, div_one, ← sub_eq_add_neg] at h
  exact h

theorem invGamma_raw_infinite {a b : ℝ} (ha : 0 < a) (hb : 0 < b) {n : ℕ} (hn : a ≤ n) (m v : ℝ) :
    ¬ HasCentral (invGammaPDF a b) m n v := by
  intro h
  have h0 := raw_integrable_of_central (invGamma_density ha hb).2.nonneg (invGamma_density ha hb).2.integrable h.1
  have h1 : HasCentral (invGammaPDF a b) 0 n (∫ x, (x - 0) ^ n * invGammaPDF a b x) := ⟨by simpa using h0, rfl⟩
  have h2 := locScale_central (m := 0) (s := 1 / b) (by positivity) h1
  have e : locScale 0 (1 / b) (invGammaPDF a b) = ggPDF a (-1) := by
    have := locScale_inv (g := ggPDF a (-1)) (m := 0) hb
    rw [← invGamma_locScale hb] at this
    simpa using this
  rw [e] at h2
  refine gg_raw_infinite ha (p := -1) (by norm_num) (k := n) (by rw [div_neg, div_one]; linarith) ?_
  simpa using h2.1

theorem invGamma_raws {a b : ℝ} (hb : 0 < b) :
    (1 < a → HasMean (invGammaPDF a b) (b / (a - 1))) ∧
    (2 < a → HasCentral (invGammaPDF a b) 0 2 (b ^ 2 / ((a - 1) * (a - 2)))) ∧
    (3 < a → HasCentral (invGammaPDF a b) 0 3 (b ^ 3 / ((a - 1) * (a - 2) * (a - 3)))) ∧
    (4 < a → HasCentral (invGammaPDF a b) 0 4 (b ^ 4 / ((a - 1) * (a - 2) * (a - 3) * (a - 4)))) := by
  have g1 : ∀ c : ℝ, 1 < c → Real.Gamma c = (c - 1) * Real.Gamma (c - 1) := fun c hc => Gamma_pred (by linarith)
  have gp : ∀ c : ℝ, 0 < c → Real.Gamma c ≠ 0 := fun c hc => (Real.Gamma_pos_of_pos hc).ne'
  refine ⟨fun h => ?_, fun h => ?_, fun h => ?_, fun h => ?_⟩
  · rw [hasMean_iff_raw]
    refine (invGamma_raw hb (n := 1) (by push_cast; linarith)).congr_val ?_
    push_cast
    have := gp (a - 1) (by linarith)
    have : a - 1 ≠ 0 := by linarith
    rw [g1 a h]; field_simp
  · refine (invGamma_raw hb (n := 2) (by push_cast; linarith)).congr_val ?_
    push_cast
    have := gp (a - 2) (by linarith)
    have : a - 1 ≠ 0 := by linarith
    have : a - 2 ≠ 0 := by linarith
    rw [g1 a (by linarith), g1 (a - 1) (by linarith), show a - 1 - 1 = a - 2 by ring]; field_simp
  · refine (invGamma_raw hb (n := 3) (by push_cast; linarith)).congr_val ?_
    push_cast
    have := gp (a - 3) (by linarith)
    have : a - 1 ≠ 0 := by linarith
    have : a - 2 ≠ 0 := by linarith
    have : a - 3 ≠ 0 := by linarith
    rw [g1 a (by linarith), g1 (a - 1) (by linarith), show a - 1 - 1 = a - 2 by ring, g1 (a - 2) (by linarith),
      show a - 2 - 1 = a - 3 by ring]; field_simp
  · refine (invGamma_raw hb (n := 4) (by push_cast; linarith)).congr_val ?_
    push_cast
    have := gp (a - 4) (by linarith)
    have : a - 1 ≠ 0 := by linarith
    have : a - 2 ≠ 0 := by linarith
    have : a - 3 ≠ 0 := by linarith
    have : a - 4 ≠ 0 := by linarith
    rw [g1 a (by linarith), g1 (a - 1) (by linarith), show a - 1 - 1 = a - 2 by ring, g1 (a - 2) (by linarith),
      show a - 2 - 1 = a - 3 by ring, g1 (a - 3) (by linarith), show a - 3 - 1 = a - 4 by ring]; field_simp

theorem invGamma_entropy {a b : ℝ} (ha : 0 < a) (hb : 0 < b) :
    HasEntropy (invGammaPDF a b) (a + Real.log (b * Real.Gamma a) - (1 + a) * digamma a) := by
  have hG := Real.Gamma_pos_of_pos ha
  have h := locScale_entropy (m := 0) hb (gg_density_neg ha (p := -1) (by norm_num)).2 (gg_entropy ha (by norm_num : (-1:ℝ) ≠ 0))
  rw [invGamma_locScale hb]
  rw [abs_neg, abs_one, Real.log_one] at h
  have e : a + Real.log (Real.Gamma a) - 0 - (a - 1 / -1) * digamma a + Real.log b =
    a + Real.log (b * Real.Gamma a) - (1 + a) * digamma a := by
    rw [Real.log_mul hb.ne' hG.ne']; ring
  rw [← e]; exact h

theorem invGamma_mode {a b : ℝ} (ha : 0 < a) (hb : 0 < b) : IsMode (invGammaPDF a b) (b / (a + 1)) := by
  have h := locScale_mode hb (gg_mode (a := a) (p := -1) ha (by norm_num) (by norm_num; linarith))
  rw [← invGamma_locScale hb] at h
  have e : b * (a - 1 / -1) ^ ((1:ℝ) / -1) = b / (a + 1) := by
    rw [show a - 1 / -1 = a + 1 by ring, show (1:ℝ) / -1 = -1 by norm_num, Real.rpow_neg_one]; rfl
  rwa [e] at h

/-! digamma values -/
theorem digamma_half : digamma (1 / 2) = -Real.eulerMascheroniConstant - 2 * Real.log 2 := by
  have h := Real.hasDerivAt_Gamma_one_half
  have h2 := gamma_hasDerivAt (show (0:ℝ) < 1 / 2 by norm_num)
  have e := h.unique h2
  rw [Real.Gamma_one_half_eq] at e
  have hp : √π ≠ 0 := by positivity
  have := mul_left_cancel₀ hp (by linarith : √π * digamma (1 / 2) = √π * (-Real.eulerMascheroniConstant - 2 * Real.log 2))
  exact this

theorem euler_lt : Real.eulerMascheroniConstant < 0.62 := by
  have h := Real.eulerMascheroniConstant_lt_eulerMascheroniSeq' 16
  have e : Real.eulerMascheroniSeq' 16 = (harmonic 16 : ℝ) - 4 * Real.log 2 := by
    rw [Real.eulerMascheroniSeq', if_neg (by norm_num)]
    congr 1
    rw [show ((16 : ℕ) : ℝ) = 2 ^ 4 by norm_num, Real.log_pow]; norm_num
  rw [e] at h
  have h16 : (harmonic 16 : ℝ) = 2436559 / 720720 := by
    have : harmonic 16 = 2436559 / 720720 := by
      unfold harmonic; norm_num [Finset.sum_range_succ]
    rw [this]; norm_num
  rw [h16] at h
  have := Real.log_two_gt_d9
  norm_num at this ⊢
  linarith

/-- `k − ln 2 − (k−1)ψ(k/2)` is never 0 -/
theorem chi_entropy_gap (k : ℕ) (hk : 1 ≤ k) : (k : ℝ) - Real.log 2 - (k - 1) * digamma (k / 2) ≠ 0 := by
  have hk' : (1:ℝ) ≤ k := by exact_mod_cast hk
  have l1 := Real.log_two_gt_d9
  have l2 := Real.log_two_lt_d9
  have dn : ∀ n : ℕ, digamma ((n : ℝ) + 1) = -Real.eulerMascheroniConstant + harmonic n := fun n => by
    have h := gamma_hasDerivAt (show (0:ℝ) < (n : ℝ) + 1 by positivity)
    have h2 := Real.hasDerivAt_Gamma_nat n
    have e := h.unique h2
    rw [Real.Gamma_nat_eq_factorial] at e
    exact mul_left_cancel₀ (by positivity) e
  have mono : ∀ x y : ℝ, 0 < x → x ≤ y → digamma x ≤ digamma y := fun x y hx hxy => by
    rcases hxy.eq_or_lt with rfl | h
    · exact le_rfl
    · exact (digamma_lt hx h).le
  have hh2 : (harmonic 2 : ℝ) = 3 / 2 := by
    have : harmonic 2 = 3 / 2 := by unfold harmonic; norm_num [Finset.sum_range_succ]
    rw [this]; norm_num
  have hh3 : (harmonic 3 : ℝ) = 11 / 6 := by
    have : harmonic 3 = 11 / 6 := by unfold harmonic; norm_num [Finset.sum_range_succ]
    rw [this]; norm_num
  rcases lt_trichotomy k 7 with h | h | h
  · have h6 : (k : ℝ) ≤ 6 := by exact_mod_cast (by omega : k ≤ 6)
    have h1 := mono (k / 2) 3 (by positivity) (by linarith)
    have h2 := dn 2
    rw [hh2] at h2
    have h3 := Real.one_half_lt_eulerMascheroniConstant
    rw [show ((2:ℕ):ℝ) + 1 = 3 by norm_num] at h2
    have h4 : (k - 1) * digamma (k / 2) ≤ (k - 1) * 1 := mul_le_mul_of_nonneg_left (by linarith) (by linarith)
    linarith
  · subst h
    have e : digamma (((7:ℕ) : ℝ) / 2) = digamma (1 / 2) + 2 + 2 / 3 + 2 / 5 := by
      have a1 := digamma_add_one (show (0:ℝ) < 1 / 2 by norm_num)
      have a2 := digamma_add_one (show (0:ℝ) < 3 / 2 by norm_num)
      have a3 := digamma_add_one (show (0:ℝ) < 5 / 2 by norm_num)
      norm_num at a1 a2 a3 ⊢
      rw [a3, a2, a1]
    rw [e, digamma_half]
    have := euler_lt
    push_cast
    norm_num at this l1 l2 ⊢
    intro hc
    linarith
  · have h8 : (8:ℝ) ≤ k := by exact_mod_cast h
    have h1 := mono 4 (k / 2) (by norm_num) (by linarith)
    have h2 := dn 3
    rw [hh3] at h2
    have h3 := Real.eulerMascheroniConstant_lt_two_thirds
    rw [show ((3:ℕ):ℝ) + 1 = 4 by norm_num] at h2
    have h4 : (k - 1) * (7 / 6) ≤ (k - 1) * digamma (k / 2) := mul_le_mul_of_nonneg_left (by linarith) (by linarith)
    have : (7 / 6 : ℝ) * (k - 1) > k - Real.log 2 := by linarith
    intro hc
    linarith

end Rstat.Spec
