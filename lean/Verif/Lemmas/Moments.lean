import Verif.Lemmas.Law

/-! Moments of densities: restriction to the support, raw versus central moments, location-scale families. -/
namespace Rstat.Spec
open MeasureTheory Filter Topology Set

/-- integral of a function living on a bounded interval -/
theorem supp_integral {a b : ℝ} (hab : a ≤ b) {F G : ℝ → ℝ} (hin : ∀ x ∈ Ioo a b, F x = G x)
    (hout : ∀ x, x < a ∨ b < x → F x = 0) (hG : IntervalIntegrable G volume a b) :
    Integrable F ∧ ∫ x, F x = ∫ x in a..b, G x := by
  have hae : F =ᵐ[volume] (Ioc a b).indicator G := by
    have hs : ({a, b} : Set ℝ).Countable := by simp
    filter_upwards [compl_mem_ae_iff.2 (hs.measure_zero volume)] with x hx
    simp only [mem_compl_iff, mem_insert_iff, mem_singleton_iff, not_or] at hx
    by_cases h : x ∈ Ioc a b
    · rw [indicator_of_mem h, hin x ⟨h.1, lt_of_le_of_ne h.2 hx.2⟩]
    · rw [indicator_of_notMem h]
      apply hout
      by_contra hc
      push Not at hc
      exact h ⟨lt_of_le_of_ne hc.1 (Ne.symm hx.1), hc.2⟩
  have hI : IntegrableOn G (Ioc a b) := (intervalIntegrable_iff_integrableOn_Ioc_of_le hab).1 hG
  constructor
  · exact ((integrable_indicator_iff measurableSet_Ioc).2 hI).congr hae.symm
  · rw [integral_congr_ae hae, integral_indicator measurableSet_Ioc, intervalIntegral.integral_of_le hab]

/-- integral of a function living on a half line -/
theorem supp_integral_Ioi {a : ℝ} {F G : ℝ → ℝ} (hin : ∀ x, a < x → F x = G x) (hout : ∀ x, x < a → F x = 0)
    (hG : IntegrableOn G (Ioi a)) : Integrable F ∧ ∫ x, F x = ∫ x in Ioi a, G x := by
  have hae : F =ᵐ[volume] (Ioi a).indicator G := by
    filter_upwards [compl_mem_ae_iff.2 ((countable_singleton a).measure_zero volume)] with x hx
    simp only [mem_compl_iff, mem_singleton_iff] at hx
    rcases lt_or_gt_of_ne hx with h | h
    · rw [indicator_of_notMem (by simpa using h.le), hout x h]
    · rw [indicator_of_mem (by simpa using h), hin x h]
  constructor
  · exact ((integrable_indicator_iff measurableSet_Ioi).2 hG).congr hae.symm
  · rw [integral_congr_ae hae, integral_indicator measurableSet_Ioi]

section raw
variable {f : ℝ → ℝ} {m q2 q3 q4 : ℝ}

theorem hasMean_iff_raw : HasMean f m ↔ HasCentral f 0 1 m := by
  unfold HasMean HasCentral; simp only [sub_zero, pow_one]

theorem central2 (h0 : Integrable f) (ht : ∫ x, f x = 1) (h1 : HasMean f m) (h2 : HasCentral f 0 2 q2) :
    HasCentral f m 2 (q2 - m ^ 2) := by
  unfold HasMean at h1; unfold HasCentral at h2
  simp only [sub_zero] at h2
  obtain ⟨h1, e1⟩ := h1; obtain ⟨h2, e2⟩ := h2
  have e : (fun x => (x - m) ^ 2 * f x) = fun x => x ^ 2 * f x - 2 * m * (x * f x) + m ^ 2 * f x := by
    ext x; ring
  unfold HasCentral
  rw [e]
  have i1 : Integrable (fun x => x ^ 2 * f x - 2 * m * (x * f x)) := h2.sub (h1.const_mul _)
  refine ⟨i1.add (h0.const_mul _), ?_⟩
  rw [integral_add i1 (h0.const_mul _), integral_sub h2 (h1.const_mul _), integral_const_mul, integral_const_mul, e1,
    e2, ht]; ring

theorem central3 (h0 : Integrable f) (ht : ∫ x, f x = 1) (h1 : HasMean f m) (h2 : HasCentral f 0 2 q2)
    (h3 : HasCentral f 0 3 q3) : HasCentral f m 3 (q3 - 3 * m * q2 + 2 * m ^ 3) := by
  unfold HasMean at h1; unfold HasCentral at h2 h3
  simp only [sub_zero] at h2 h3
  obtain ⟨h1, e1⟩ := h1; obtain ⟨h2, e2⟩ := h2; obtain ⟨h3, e3⟩ := h3
  have e : (fun x => (x - m) ^ 3 * f x) =
      fun x => x ^ 3 * f x - 3 * m * (x ^ 2 * f x) + 3 * m ^ 2 * (x * f x) - m ^ 3 * f x := by
    ext x; ring
  unfold HasCentral
  rw [e]
  have i1 : Integrable (fun x => x ^ 3 * f x - 3 * m * (x ^ 2 * f x)) := h3.sub (h2.const_mul _)
  have i2 : Integrable (fun x => x ^ 3 * f x - 3 * m * (x ^ 2 * f x) + 3 * m ^ 2 * (x * f x)) :=
    i1.add (h1.const_mul _)
  refine ⟨i2.sub (h0.const_mul _), ?_⟩
  rw [integral_sub i2 (h0.const_mul _), integral_add i1 (h1.const_mul _), integral_sub h3 (h2.const_mul _),
    integral_const_mul, integral_const_mul, integral_const_mul, e1, e2, e3, ht]; ring

theorem central4 (h0 : Integrable f) (ht : ∫ x, f x = 1) (h1 : HasMean f m) (h2 : HasCentral f 0 2 q2)
    (h3 : HasCentral f 0 3 q3) (h4 : HasCentral f 0 4 q4) :
    HasCentral f m 4 (q4 - 4 * m * q3 + 6 * m ^ 2 * q2 - 3 * m ^ 4) := by
  unfold HasMean at h1; unfold HasCentral at h2 h3 h4
  simp only [sub_zero] at h2 h3 h4
  obtain ⟨h1, e1⟩ := h1; obtain ⟨h2, e2⟩ := h2; obtain ⟨h3, e3⟩ := h3; obtain ⟨h4, e4⟩ := h4
  have e : (fun x => (x - m) ^ 4 * f x) =
      fun x => x ^ 4 * f x - 4 * m * (x ^ 3 * f x) + 6 * m ^ 2 * (x ^ 2 * f x) - 4 * m ^ 3 * (x * f x) + m ^ 4 * f x := by
    ext x; ring
  unfold HasCentral
  rw [e]
  have i1 : Integrable (fun x => x ^ 4 * f x - 4 * m * (x ^ 3 * f x)) := h4.sub (h3.const_mul _)
  have i2 : Integrable (fun x => x ^ 4 * f x - 4 * m * (x ^ 3 * f x) + 6 * m ^ 2 * (x ^ 2 * f x)) :=
    i1.add (h2.const_mul _)
  have i3 : Integrable (fun x => x ^ 4 * f x - 4 * m * (x ^ 3 * f x) + 6 * m ^ 2 * (x ^ 2 * f x) - 4 * m ^ 3 * (x * f x)) :=
    i2.sub (h1.const_mul _)
  refine ⟨i3.add (h0.const_mul _), ?_⟩
  rw [integral_add i3 (h0.const_mul _), integral_sub i2 (h1.const_mul _), integral_add i1 (h2.const_mul _),
    integral_sub h4 (h3.const_mul _),
    integral_const_mul, integral_const_mul, integral_const_mul, integral_const_mul, e1, e2, e3, e4, ht]; ring

theorem HasCentral.congr_val {k : ℕ} {v w : ℝ} (h : HasCentral f m k v) (e : v = w) : HasCentral f m k w := e ▸ h

end raw

section locscale
variable {m s : ℝ}

theorem integrable_locscale (hs : 0 < s) {h : ℝ → ℝ} (hi : Integrable h) : Integrable (fun x => h ((x - m) / s)) :=
  (hi.comp_div hs.ne').comp_sub_right m

theorem integral_locscale (hs : 0 < s) (h : ℝ → ℝ) : ∫ x, h ((x - m) / s) = s * ∫ z, h z := by
  rw [integral_sub_right_eq_self (fun x => h (x / s)) m, Measure.integral_comp_div, abs_of_pos hs, smul_eq_mul]

/-- the density of `m + s Z` -/
noncomputable def locScale (m s : ℝ) (g : ℝ → ℝ) (x : ℝ) : ℝ := g ((x - m) / s) / s

theorem locScale_isCDF {G : ℝ → ℝ} (hs : 0 < s) (h : IsCDF G) : IsCDF (fun x => G ((x - m) / s)) where
  mono := fun x y hxy => h.mono (by gcongr)
  rightCont := fun x => by
    refine (h.rightCont ((x - m) / s)).comp (f := fun x => (x - m) / s) (by fun_prop) fun y hy => ?_
    exact mem_Ici.2 (div_le_div_of_nonneg_right (sub_le_sub_right hy m) hs.le)
  bot := h.bot.comp ((tendsto_atBot_add_const_right _ (-m) tendsto_id).atBot_div_const hs)
  top := h.top.comp ((tendsto_atTop_add_const_right _ (-m) tendsto_id).atTop_div_const hs)

theorem locScale_density {g G : ℝ → ℝ} (hs : 0 < s) (h : IsDensityOf g G) :
    IsDensityOf (locScale m s g) (fun x => G ((x - m) / s)) where
  nonneg := fun x => div_nonneg (h.nonneg _) hs.le
  integrable := (integrable_locscale hs h.integrable).div_const s
  total := by
    unfold locScale
    rw [integral_div, integral_locscale hs, h.total, mul_one, div_self hs.ne']
  cdf := fun x => by
    have e : ∀ t, (Iic x).indicator (locScale m s g) t =
        (fun z => (Iic ((x - m) / s)).indicator g z / s) ((t - m) / s) := by
      intro t
      unfold locScale
      by_cases ht : t ≤ x
      · have : (t - m) / s ≤ (x - m) / s := by gcongr
        simp only
        rw [indicator_of_mem (by exact ht), indicator_of_mem (by exact this)]
      · have : ¬ (t - m) / s ≤ (x - m) / s := by
          rw [div_le_div_iff_of_pos_right hs]; simpa using ht
        simp only
        rw [indicator_of_notMem (by exact ht), indicator_of_notMem (by exact this), zero_div]
    rw [h.cdf, ← integral_indicator measurableSet_Iic, ← integral_indicator measurableSet_Iic]
    rw [integral_congr_ae (Eventually.of_forall e),
      integral_locscale hs (fun z => (Iic ((x - m) / s)).indicator g z / s), integral_div]
    field_simp

theorem locScale_central {g : ℝ → ℝ} (hs : 0 < s) {c v : ℝ} {k : ℕ} (h : HasCentral g c k v) :
    HasCentral (locScale m s g) (m + s * c) k (s ^ k * v) := by
  have e : (fun x => (x - (m + s * c)) ^ k * locScale m s g x) =
      fun x => (fun z => s ^ k / s * ((z - c) ^ k * g z)) ((x - m) / s) := by
    ext x
    unfold locScale
    simp only
    have : x - (m + s * c) = s * ((x - m) / s - c) := by field_simp; ring
    rw [this, mul_pow]; field_simp
  unfold HasCentral
  rw [e]
  refine ⟨integrable_locscale hs (h.1.const_mul _), ?_⟩
  rw [integral_locscale hs (fun z => s ^ k / s * ((z - c) ^ k * g z)), integral_const_mul, h.2]; field_simp

theorem locScale_mean {g G : ℝ → ℝ} (hs : 0 < s) (hd : IsDensityOf g G) {c : ℝ} (h : HasMean g c) :
    HasMean (locScale m s g) (m + s * c) := by
  have e : (fun x => x * locScale m s g x) =
      fun x => (fun z => m / s * g z + (z * g z)) ((x - m) / s) := by
    ext x
    unfold locScale
    simp only
    field_simp; ring
  unfold HasMean
  rw [e]
  have j : Integrable (fun z => m / s * g z + z * g z) := (hd.integrable.const_mul _).add h.1
  refine ⟨integrable_locscale hs j, ?_⟩
  rw [integral_locscale hs (fun z => m / s * g z + z * g z), integral_add (hd.integrable.const_mul _) h.1, integral_const_mul, h.2, hd.total]; field_simp

theorem locScale_entropy {g G : ℝ → ℝ} (hs : 0 < s) (hd : IsDensityOf g G) {c : ℝ} (h : HasEntropy g c) :
    HasEntropy (locScale m s g) (c + Real.log s) := by
  have e : (fun x => locScale m s g x * Real.log (locScale m s g x)) =
      fun x => (fun z => (1 / s) * (g z * Real.log (g z)) - Real.log s / s * g z) ((x - m) / s) := by
    ext x
    unfold locScale
    simp only
    rcases eq_or_ne (g ((x - m) / s)) 0 with h0 | h0
    · rw [h0]; simp
    · rw [Real.log_div h0 hs.ne']; field_simp
  unfold HasEntropy
  rw [e]
  have j : Integrable (fun z => (1 / s) * (g z * Real.log (g z)) - Real.log s / s * g z) :=
    (h.1.const_mul _).sub (hd.integrable.const_mul _)
  refine ⟨integrable_locscale hs j, ?_⟩
  rw [integral_locscale hs (fun z => (1 / s) * (g z * Real.log (g z)) - Real.log s / s * g z), integral_sub (h.1.const_mul _) (hd.integrable.const_mul _), integral_const_mul,
    integral_const_mul, hd.total]
  have h2 : ∫ z, g z * Real.log (g z) = -c := by rw [← h.2, neg_neg]
  rw [h2]; field_simp; ring

theorem locScale_meanVar {g G : ℝ → ℝ} (hs : 0 < s) (hd : IsDensityOf g G) {c v : ℝ} (h : HasMeanVar g c v) :
    HasMeanVar (locScale m s g) (m + s * c) (s ^ 2 * v) := ⟨locScale_mean hs hd h.1, locScale_central hs h.2⟩

end locscale

end Rstat.Spec

namespace Rstat.Spec
open MeasureTheory
theorem HasMeanVar.unique {f : ℝ → ℝ} {m v m' v' : ℝ} (h : HasMeanVar f m v) (h' : HasMeanVar f m' v') :
    m = m' ∧ v = v' := by
  have e : m = m' := by rw [← h.1.2, ← h'.1.2]
  subst e
  exact ⟨rfl, by rw [← h.2.2, ← h'.2.2]⟩
theorem HasKurt.unique {f : ℝ → ℝ} {κ κ' : ℝ} (h : HasKurt f κ) (h' : HasKurt f κ') : κ = κ' := by
  obtain ⟨m, v, hv, hm, h4⟩ := h
  obtain ⟨m', v', hv', hm', h4'⟩ := h'
  obtain ⟨rfl, rfl⟩ := hm.unique hm'
  have := h4.2.symm.trans h4'.2
  exact mul_right_cancel₀ (pow_ne_zero 2 hv.ne') this
theorem HasSkew.unique {f : ℝ → ℝ} {κ κ' : ℝ} (h : HasSkew f κ) (h' : HasSkew f κ') : κ = κ' := by
  obtain ⟨m, v, hv, hm, h4⟩ := h
  obtain ⟨m', v', hv', hm', h4'⟩ := h'
  obtain ⟨rfl, rfl⟩ := hm.unique hm'
  have := h4.2.symm.trans h4'.2
  exact mul_right_cancel₀ (pow_ne_zero 3 (Real.sqrt_pos.2 hv).ne') this
theorem HasEntropy.unique {f : ℝ → ℝ} {a b : ℝ} (h : HasEntropy f a) (h' : HasEntropy f b) : a = b :=
  h.2.symm.trans h'.2
theorem IsDensityOf.unique {f F G : ℝ → ℝ} (h : IsDensityOf f F) (h' : IsDensityOf f G) : F = G := by
  ext x; rw [h.cdf, h'.cdf]

/-- assemble skewness from a location-scale family -/
theorem locScale_skew {g G : ℝ → ℝ} {m s : ℝ} (hs : 0 < s) (hd : IsDensityOf g G) {κ : ℝ} (h : HasSkew g κ) :
    HasSkew (locScale m s g) κ := by
  obtain ⟨c, v, hv, hm, h4⟩ := h
  refine ⟨_, _, by positivity, locScale_meanVar hs hd hm, (locScale_central hs h4).congr_val ?_⟩
  rw [Real.sqrt_mul (by positivity), Real.sqrt_sq hs.le]; ring
theorem locScale_kurt {g G : ℝ → ℝ} {m s : ℝ} (hs : 0 < s) (hd : IsDensityOf g G) {κ : ℝ} (h : HasKurt g κ) :
    HasKurt (locScale m s g) κ := by
  obtain ⟨c, v, hv, hm, h4⟩ := h
  exact ⟨_, _, by positivity, locScale_meanVar hs hd hm, (locScale_central hs h4).congr_val (by ring)⟩

/-- a point where a distribution function takes the value `p` and below which it is smaller is the quantile -/
theorem isQuantile_of {F : ℝ → ℝ} {p x : ℝ} (h : F x = p) (hlt : ∀ y, y < x → F y < p) : IsQuantile F p x :=
  ⟨h.ge, fun y hy => by by_contra hc; exact absurd (hlt y (not_le.1 hc)) (not_lt.2 hy)⟩

theorem hasSum_congr2 {α : Type*} {f g : α → ℝ} {a b : ℝ} (h : HasSum f a) (hf : ∀ x, g x = f x) (hab : b = a) :
    HasSum g b := by
  obtain rfl : g = f := funext hf
  exact hab ▸ h

section discrete
variable {α : Type*} {p X : α → ℝ} {m q2 q3 q4 : ℝ}

theorem centralD2 (h0 : HasSum p 1) (h1 : HasSum (fun a => X a * p a) m) (h2 : HasSum (fun a => X a ^ 2 * p a) q2) :
    HasCentralD p X m 2 (q2 - m ^ 2) := by
  have := (h2.sub (h1.mul_left (2 * m))).add (h0.mul_left (m ^ 2))
  unfold HasCentralD
  exact hasSum_congr2 this (fun a => by ring) (by ring)
theorem centralD3 (h0 : HasSum p 1) (h1 : HasSum (fun a => X a * p a) m) (h2 : HasSum (fun a => X a ^ 2 * p a) q2)
    (h3 : HasSum (fun a => X a ^ 3 * p a) q3) : HasCentralD p X m 3 (q3 - 3 * m * q2 + 2 * m ^ 3) := by
  have := ((h3.sub (h2.mul_left (3 * m))).add (h1.mul_left (3 * m ^ 2))).sub (h0.mul_left (m ^ 3))
  unfold HasCentralD
  exact hasSum_congr2 this (fun a => by ring) (by ring)
theorem centralD4 (h0 : HasSum p 1) (h1 : HasSum (fun a => X a * p a) m) (h2 : HasSum (fun a => X a ^ 2 * p a) q2)
    (h3 : HasSum (fun a => X a ^ 3 * p a) q3) (h4 : HasSum (fun a => X a ^ 4 * p a) q4) :
    HasCentralD p X m 4 (q4 - 4 * m * q3 + 6 * m ^ 2 * q2 - 3 * m ^ 4) := by
  have := (((h4.sub (h3.mul_left (4 * m))).add (h2.mul_left (6 * m ^ 2))).sub (h1.mul_left (4 * m ^ 3))).add
    (h0.mul_left (m ^ 4))
  unfold HasCentralD
  exact hasSum_congr2 this (fun a => by ring) (by ring)

theorem HasMeanVarD.unique {m v m' v' : ℝ} (h : HasMeanVarD p X m v) (h' : HasMeanVarD p X m' v') : m = m' ∧ v = v' := by
  obtain rfl := h.1.unique h'.1
  exact ⟨rfl, h.2.unique h'.2⟩
theorem HasKurtD.unique {κ κ' : ℝ} (h : HasKurtD p X κ) (h' : HasKurtD p X κ') : κ = κ' := by
  obtain ⟨m, v, hv, hm, h4⟩ := h
  obtain ⟨m', v', hv', hm', h4'⟩ := h'
  obtain ⟨rfl, rfl⟩ := hm.unique hm'
  exact mul_right_cancel₀ (pow_ne_zero 2 hv.ne') (h4.unique h4')
theorem HasSkewD.unique {κ κ' : ℝ} (h : HasSkewD p X κ) (h' : HasSkewD p X κ') : κ = κ' := by
  obtain ⟨m, v, hv, hm, h4⟩ := h
  obtain ⟨m', v', hv', hm', h4'⟩ := h'
  obtain ⟨rfl, rfl⟩ := hm.unique hm'
  exact mul_right_cancel₀ (pow_ne_zero 3 (Real.sqrt_pos.2 hv).ne') (h4.unique h4')

theorem HasCentralD.congr_val {k : ℕ} {v w : ℝ} (h : HasCentralD p X m k v) (e : v = w) : HasCentralD p X m k w := e ▸ h
end discrete
end Rstat.Spec

namespace Rstat.Spec
open MeasureTheory Filter Topology Set

/-- a law with a density has positive variance -/
theorem var_pos {f F : ℝ → ℝ} {m v : ℝ} (hd : IsDensityOf f F) (h : HasCentral f m 2 v) : 0 < v := by
  have hn : ∀ x, 0 ≤ (x - m) ^ 2 * f x := fun x => mul_nonneg (sq_nonneg _) (hd.nonneg x)
  have h0 : 0 ≤ v := h.2 ▸ integral_nonneg hn
  refine lt_of_le_of_ne h0 fun hv => ?_
  have hz := (integral_eq_zero_iff_of_nonneg (μ := volume) (f := fun x => (x - m) ^ 2 * f x) hn h.1).1 (by rw [h.2, hv])
  have hf0 : f =ᵐ[volume] 0 := by
    filter_upwards [hz, compl_mem_ae_iff.2 ((countable_singleton m).measure_zero volume)] with x hx hxm
    have hx : (x - m) ^ 2 * f x = 0 := hx
    rcases mul_eq_zero.1 hx with h1 | h1
    · exact absurd (by have := pow_eq_zero_iff (two_ne_zero) |>.1 h1; linarith : x = m) hxm
    · exact h1
  have := integral_congr_ae hf0
  rw [hd.total] at this
  simp at this

/-- mean, variance, skewness and kurtosis from the first four raw moments -/
theorem moments_of_raw {f F : ℝ → ℝ} {m q2 q3 q4 : ℝ} (hd : IsDensityOf f F) (h1 : HasMean f m) (h2 : HasCentral f 0 2 q2)
    (h3 : HasCentral f 0 3 q3) (h4 : HasCentral f 0 4 q4) :
    0 < q2 - m ^ 2 ∧ HasMeanVar f m (q2 - m ^ 2) ∧
    HasSkew f ((q3 - 3 * m * q2 + 2 * m ^ 3) / Real.sqrt (q2 - m ^ 2) ^ 3) ∧
    HasKurt f ((q4 - 4 * m * q3 + 6 * m ^ 2 * q2 - 3 * m ^ 4) / (q2 - m ^ 2) ^ 2) := by
  have c2 := central2 hd.integrable hd.total h1 h2
  have hv := var_pos hd c2
  have hs : Real.sqrt (q2 - m ^ 2) ≠ 0 := (Real.sqrt_pos.2 hv).ne'
  refine ⟨hv, ⟨h1, c2⟩, ⟨m, _, hv, ⟨h1, c2⟩, (central3 hd.integrable hd.total h1 h2 h3).congr_val ?_⟩,
    ⟨m, _, hv, ⟨h1, c2⟩, (central4 hd.integrable hd.total h1 h2 h3 h4).congr_val ?_⟩⟩
  · field_simp
  · field_simp

theorem skew_of_raw {f F : ℝ → ℝ} {m q2 q3 : ℝ} (hd : IsDensityOf f F) (h1 : HasMean f m) (h2 : HasCentral f 0 2 q2)
    (h3 : HasCentral f 0 3 q3) :
    0 < q2 - m ^ 2 ∧ HasMeanVar f m (q2 - m ^ 2) ∧
    HasSkew f ((q3 - 3 * m * q2 + 2 * m ^ 3) / Real.sqrt (q2 - m ^ 2) ^ 3) := by
  have c2 := central2 hd.integrable hd.total h1 h2
  have hv := var_pos hd c2
  have hs : Real.sqrt (q2 - m ^ 2) ≠ 0 := (Real.sqrt_pos.2 hv).ne'
  refine ⟨hv, ⟨h1, c2⟩, ⟨m, _, hv, ⟨h1, c2⟩, (central3 hd.integrable hd.total h1 h2 h3).congr_val ?_⟩⟩
  field_simp

/-- going back from `m + s Z` to `Z` -/
theorem locScale_inv {g : ℝ → ℝ} {m s : ℝ} (hs : 0 < s) : locScale (-(m / s)) (1 / s) (locScale m s g) = g := by
  ext x; unfold locScale
  have : ((x - -(m / s)) / (1 / s) - m) / s = x := by field_simp; ring
  rw [this]; field_simp

theorem locScale_central_iff {g : ℝ → ℝ} {m s c v : ℝ} {k : ℕ} (hs : 0 < s) :
    HasCentral (locScale m s g) (m + s * c) k (s ^ k * v) ↔ HasCentral g c k v := by
  refine ⟨fun h => ?_, locScale_central hs⟩
  have h2 := locScale_central (m := -(m / s)) (s := 1 / s) (by positivity) h
  rw [locScale_inv hs] at h2
  have e : -(m / s) + 1 / s * (m + s * c) = c := by field_simp; ring
  rw [e] at h2
  exact h2.congr_val (by rw [← mul_assoc, ← mul_pow, one_div, inv_mul_cancel₀ hs.ne', one_pow, one_mul])

theorem locScale_no_central {g : ℝ → ℝ} {m s : ℝ} {k : ℕ} (hs : 0 < s) (h : ∀ c v, ¬ HasCentral g c k v) (c v : ℝ) :
    ¬ HasCentral (locScale m s g) c k v := fun hc => by
  refine h ((c - m) / s) (v / s ^ k) ((locScale_central_iff (m := m) hs).1 ?_)
  rw [show m + s * ((c - m) / s) = c by field_simp; ring, mul_div_cancel₀ _ (by positivity)]
  exact hc

end Rstat.Spec
