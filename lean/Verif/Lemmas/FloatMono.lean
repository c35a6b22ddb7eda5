import Verif.Lemmas.Traits
import Verif.Lemmas.Positive
import Verif.Float.Libm

/-! Monotonicity of rounded f64 operations, including infinities and signed zeros. -/
namespace Rstat
namespace F64
open Classical

theorem le_cases {a b : F64} : a ≤ b ↔ a ≠ nan ∧ b ≠ nan ∧ (a = ninf ∨ b = pinf ∨ ∃ r s, a.Is r ∧ b.Is s ∧ r ≤ s) := by
  constructor
  · intro h
    refine ⟨fun e => by subst e; simp at h, fun e => by subst e; simp at h, ?_⟩
    by_cases ha : a = ninf
    · exact Or.inl ha
    by_cases hb : b = pinf
    · exact Or.inr (Or.inl hb)
    refine Or.inr (Or.inr ?_)
    obtain ⟨x, y, hx, hy, hxy⟩ := h
    have fa : a.isFinite := by
      cases a with
      | nan => simp at hx
      | pinf =>
        simp at hx; subst hx
        cases b with
        | nan => simp at hy
        | pinf => exact absurd rfl hb
        | ninf => simp at hy; subst hy; simp at hxy
        | negZero => simp at hy; subst hy; simp at hxy
        | fin s => simp at hy; subst hy; simp at hxy
      | ninf => exact absurd rfl ha
      | negZero => trivial
      | fin r => trivial
    have fb : b.isFinite := by
      cases b with
      | nan => simp at hy
      | pinf => exact absurd rfl hb
      | ninf =>
        simp at hy; subst hy
        have := fa.is.ext_eq
        rw [this] at hx; simp at hx; subst hx; simp at hxy
      | negZero => trivial
      | fin r => trivial
    refine ⟨_, _, fa.is, fb.is, ?_⟩
    exact (fa.is.le_iff fb.is).1 ⟨x, y, hx, hy, hxy⟩
  · rintro ⟨ha, hb, h | h | ⟨r, s, hr, hs, h⟩⟩
    · subst h
      cases b with
      | nan => exact absurd rfl hb
      | _ => exact ⟨_, _, rfl, rfl, bot_le⟩
    · subst h
      cases a with
      | nan => exact absurd rfl ha
      | _ => exact ⟨_, _, rfl, rfl, le_top⟩
    · exact (hr.le_iff hs).2 h

theorem bot_le' {b : F64} (hb : b ≠ nan) : ninf ≤ b := le_cases.2 ⟨by simp, hb, Or.inl rfl⟩
theorem le_top' {b : F64} (hb : b ≠ nan) : b ≤ pinf := le_cases.2 ⟨hb, by simp, Or.inr (Or.inl rfl)⟩
theorem le_rfl' {a : F64} (ha : a ≠ nan) : a ≤ a := by
  cases a with
  | nan => exact absurd rfl ha
  | _ => exact ⟨_, _, rfl, rfl, le_rfl⟩
theorem le_trans' {a b c : F64} (h : a ≤ b) (h' : b ≤ c) : a ≤ c := by
  obtain ⟨x, y, hx, hy, hxy⟩ := h
  obtain ⟨y', z, hy', hz, hyz⟩ := h'
  rw [hy] at hy'; cases hy'
  exact ⟨x, z, hx, hz, hxy.trans hyz⟩
theorem ne_nan_left {a b : F64} (h : a ≤ b) : a ≠ nan := (le_cases.1 h).1
theorem ne_nan_right {a b : F64} (h : a ≤ b) : b ≠ nan := (le_cases.1 h).2.1
theorem le_of_lt' {a b : F64} (h : a < b) : a ≤ b := by
  obtain ⟨x, y, hx, hy, hxy⟩ := h; exact ⟨x, y, hx, hy, hxy.le⟩
theorem le_total' {a b : F64} (ha : a ≠ nan) (hb : b ≠ nan) : a ≤ b ∨ b < a := by
  have : ∀ c : F64, c ≠ nan → ∃ x, c.ext = some x := fun c hc => by
    cases c with
    | nan => exact absurd rfl hc
    | _ => exact ⟨_, rfl⟩
  obtain ⟨x, hx⟩ := this a ha
  obtain ⟨y, hy⟩ := this b hb
  rcases le_or_gt x y with h | h
  · exact Or.inl ⟨x, y, hx, hy, h⟩
  · exact Or.inr ⟨y, x, hy, hx, h⟩
theorem lt_of_le_of_lt' {a b c : F64} (h : a ≤ b) (h' : b < c) : a < c := by
  obtain ⟨x, y, hx, hy, hxy⟩ := h
  obtain ⟨y', z, hy', hz, hyz⟩ := h'
  rw [hy] at hy'; cases hy'
  exact ⟨x, z, hx, hz, hxy.trans_lt hyz⟩
theorem lt_of_lt_of_le' {a b c : F64} (h : a < b) (h' : b ≤ c) : a < c := by
  obtain ⟨x, y, hx, hy, hxy⟩ := h
  obtain ⟨y', z, hy', hz, hyz⟩ := h'
  rw [hy] at hy'; cases hy'
  exact ⟨x, z, hx, hz, hxy.trans_le hyz⟩
theorem not_lt_of_le' {a b : F64} (h : a ≤ b) : ¬ b < a := by
  rintro ⟨y, x, hy, hx, h2⟩
  obtain ⟨x', y', hx', hy', h1⟩ := h
  rw [hx] at hx'; rw [hy] at hy'; cases hx'; cases hy'
  exact absurd h1 (not_le.2 h2)

/-- positive: a positive finite value or +inf -/
theorem pos_cases [FP] {y : F64} (h : (0 : F64) < y) : y = pinf ∨ ∃ r, y = fin r ∧ 0 < r := by
  rcases nonneg_cases (le_of_lt' h) with rfl | ⟨r, hr, h0⟩
  · exact Or.inl rfl
  · have h1 := pos_of_lt h hr
    exact Or.inr ⟨r, hr.eq_fin h1.ne', h1⟩

/-- f64 comparison gives the order of the finite values, with `0 ≤ x` excluding `-inf` -/
theorem nonneg_ne_ninf [FP] {y : F64} (h : (0 : F64) ≤ y) : y ≠ ninf := by
  rintro rfl
  rcases nonneg_cases h with h | ⟨r, hr, _⟩
  · cases h
  · rcases hr with h | ⟨h, _⟩ <;> cases h

theorem neg_anti {a b : F64} (h : a ≤ b) : -b ≤ -a := by
  obtain ⟨ha, hb, h⟩ := le_cases.1 h
  have nn : ∀ c : F64, c ≠ nan → -c ≠ nan := fun c hc => by
    cases c with
    | nan => exact absurd rfl hc
    | fin r => change F64.neg (fin r) ≠ nan; simp only [F64.neg]; split_ifs <;> simp
    | _ => change F64.neg _ ≠ nan; unfold F64.neg; simp
  rcases h with rfl | rfl | ⟨r, s, hr, hs, h⟩
  · exact le_top' (nn b hb)
  · exact bot_le' (nn a ha)
  · exact (hs.neg.le_iff hr.neg).2 (by linarith)

variable [FP]

/-! ### rounding -/
section
variable [FP.Lawful]

theorem rnd_pos_sign {r : ℝ} (h : r ≤ 0) : FP.rnd r ≤ 0 := by
  have := FP.Lawful.rnd_mono h; rwa [rnd_zero] at this

theorem round_ne_nan (r : ℝ) : F64.round r ≠ nan := by
  unfold F64.round; split_ifs <;> simp

theorem round_mono {r s : ℝ} (h : r ≤ s) : F64.round r ≤ F64.round s := by
  by_cases hs : FP.huge (FP.rnd s)
  · by_cases h0 : 0 < s
    · have : F64.round s = pinf := by simp [F64.round, hs, h0]
      rw [this]; exact le_top' (round_ne_nan r)
    · have h1 := not_lt.1 h0
      have hr : FP.huge (FP.rnd r) := by
        refine FP.Lawful.huge_mono _ _ ?_ hs
        have a1 := FP.Lawful.rnd_mono h
        have a2 := rnd_pos_sign h1
        rw [abs_of_nonpos a2, abs_of_nonpos (a1.trans a2)]; linarith
      have : F64.round r = ninf := by simp [F64.round, hr, h.trans h1]
      rw [this]; exact bot_le' (round_ne_nan s)
  · by_cases hr : FP.huge (FP.rnd r)
    · by_cases h0 : 0 < r
      · exfalso; apply hs
        refine FP.Lawful.huge_mono _ _ ?_ hr
        rw [abs_of_nonneg (rnd_nonneg h0.le), abs_of_nonneg (rnd_nonneg (h0.le.trans h))]
        exact FP.Lawful.rnd_mono h
      · have : F64.round r = ninf := by simp [F64.round, hr, not_lt.1 h0]
        rw [this]; exact bot_le' (round_ne_nan s)
    · exact ((round_is hr).le_iff (round_is hs)).2 (FP.Lawful.rnd_mono h)

theorem round_zero_is : (F64.round 0).Is 0 := by
  have := round_is (r := 0) (by rw [rnd_zero]; exact not_huge_zero); rwa [rnd_zero] at this
theorem not_huge_one : ¬ FP.huge (1 : ℝ) := FP.Lawful.not_huge 1 (by rw [abs_one]; exact one_le_pow₀ (by norm_num))
theorem round_one_is : (F64.round 1).Is 1 := by
  have := round_is (r := 1) (by rw [rnd_one]; exact not_huge_one); rwa [rnd_one] at this
theorem round_one : F64.round 1 = fin 1 := round_one_is.eq_fin one_ne_zero
theorem round_nonneg {r : ℝ} (h : 0 ≤ r) : (0 : F64) ≤ F64.round r := le_round_of_le h rnd_zero not_huge_zero
theorem round_le_one {r : ℝ} (h : r ≤ 1) : F64.round r ≤ (1 : F64) := round_le_of_le h rnd_one not_huge_one

/-- transfer along equal values -/
theorem le_congr {a a' b b' : F64} (ha : a.ext = a'.ext) (hb : b.ext = b'.ext) (h : a ≤ b) : a' ≤ b' := by
  obtain ⟨x, y, hx, hy, hxy⟩ := h; exact ⟨x, y, ha ▸ hx, hb ▸ hy, hxy⟩

/-! ### addition with a finite constant -/
theorem add_fin_ne_nan {a c : F64} {k : ℝ} (ha : a ≠ nan) (hc : c.Is k) : a + c ≠ nan := by
  change F64.add a c ≠ nan
  rcases hc with rfl | ⟨rfl, _⟩ <;> cases a <;> simp [F64.add, round_ne_nan] at ha ⊢
theorem ninf_add {c : F64} {k : ℝ} (hc : c.Is k) : ninf + c = ninf := by
  rcases hc with rfl | ⟨rfl, _⟩ <;> rfl
theorem pinf_add {c : F64} {k : ℝ} (hc : c.Is k) : pinf + c = pinf := by
  rcases hc with rfl | ⟨rfl, _⟩ <;> rfl
theorem fin_add_ninf {c : F64} {k : ℝ} (hc : c.Is k) : c + ninf = ninf := by
  rcases hc with rfl | ⟨rfl, _⟩ <;> rfl
theorem fin_add_pinf {c : F64} {k : ℝ} (hc : c.Is k) : c + pinf = pinf := by
  rcases hc with rfl | ⟨rfl, _⟩ <;> rfl

/-- value of a finite sum, up to the sign of a zero -/
theorem add_ext {a b : F64} {r s : ℝ} (ha : a.Is r) (hb : b.Is s) : (a + b).ext = (F64.round (r + s)).ext := by
  rcases add_eq_round ha hb with he | ⟨h1, h2, he⟩
  · rw [he]
  · rw [he]; rw [h1] at ha; rw [h2] at hb
    have e1 := ha.eq Is.negZero
    have e2 := hb.eq Is.negZero
    rw [e1, e2, add_zero, round_zero_is.ext_eq]; simp

theorem add_mono {a b c d : F64} {r s u v : ℝ} (ha : a.Is r) (hb : b.Is s) (hc : c.Is u) (hd : d.Is v)
    (h : r + s ≤ u + v) : a + b ≤ c + d :=
  le_congr (add_ext ha hb).symm (add_ext hc hd).symm (round_mono h)

theorem add_const_mono {a b c : F64} {k : ℝ} (hc : c.Is k) (h : a ≤ b) : a + c ≤ b + c := by
  obtain ⟨ha, hb, h⟩ := le_cases.1 h
  rcases h with rfl | rfl | ⟨r, s, hr, hs, h⟩
  · rw [ninf_add hc]; exact bot_le' (add_fin_ne_nan hb hc)
  · rw [pinf_add hc]; exact le_top' (add_fin_ne_nan ha hc)
  · exact add_mono hr hc hs hc (by linarith)
theorem const_add_ne_nan {a c : F64} {k : ℝ} (ha : a ≠ nan) (hc : c.Is k) : c + a ≠ nan := by
  change F64.add c a ≠ nan
  rcases hc with rfl | ⟨rfl, _⟩ <;> cases a <;> simp [F64.add, round_ne_nan] at ha ⊢
theorem const_add_mono {a b c : F64} {k : ℝ} (hc : c.Is k) (h : a ≤ b) : c + a ≤ c + b := by
  obtain ⟨ha, hb, h⟩ := le_cases.1 h
  rcases h with rfl | rfl | ⟨r, s, hr, hs, h⟩
  · rw [fin_add_ninf hc]; exact bot_le' (const_add_ne_nan hb hc)
  · rw [fin_add_pinf hc]; exact le_top' (const_add_ne_nan ha hc)
  · exact add_mono hc hr hc hs (by linarith)
theorem sub_const_mono {a b c : F64} {k : ℝ} (hc : c.Is k) (h : a ≤ b) : a - c ≤ b - c :=
  add_const_mono hc.neg h
theorem const_sub_anti {a b c : F64} {k : ℝ} (hc : c.Is k) (h : a ≤ b) : c - b ≤ c - a :=
  const_add_mono hc (neg_anti h)

/-! ### multiplication and division by a positive finite constant -/
theorem mul_fin_ext {a b : F64} {r s : ℝ} (ha : a.Is r) (hb : b.Is s) : (a * b).ext = (F64.round (r * s)).ext := by
  rw [mul_finite ha hb]
  split
  · rename_i h; rw [h, (szero_is _).ext_eq, round_zero_is.ext_eq]
  · rfl
theorem div_fin_ext {a b : F64} {r s : ℝ} (ha : a.Is r) (hb : b.Is s) (hs : s ≠ 0) :
    (a / b).ext = (F64.round (r / s)).ext := by
  rw [div_finite ha hb hs]
  split
  · rename_i h; rw [h, zero_div, (szero_is _).ext_eq, round_zero_is.ext_eq]
  · rfl

theorem const_mul_pinf {k : ℝ} (hk : 0 < k) : fin k * pinf = pinf := by
  change F64.mul (fin k) pinf = pinf
  simp [F64.mul, hk.ne', sinf, hk.le]
theorem const_mul_ninf {k : ℝ} (hk : 0 < k) : fin k * ninf = ninf := by
  change F64.mul (fin k) ninf = ninf
  simp [F64.mul, hk.ne', sinf, hk.le]
theorem pinf_mul_const {k : ℝ} (hk : 0 < k) : pinf * fin k = pinf := by
  change F64.mul pinf (fin k) = pinf
  simp [F64.mul, hk.ne', sinf, hk.le]
theorem ninf_mul_const {k : ℝ} (hk : 0 < k) : ninf * fin k = ninf := by
  change F64.mul ninf (fin k) = ninf
  simp [F64.mul, hk.ne', sinf, hk.le]
theorem pinf_div_const {k : ℝ} (hk : 0 < k) : pinf / fin k = pinf := by
  change F64.div pinf (fin k) = pinf
  simp [F64.div, sinf, hk.le]
theorem ninf_div_const {k : ℝ} (hk : 0 < k) : ninf / fin k = ninf := by
  change F64.div ninf (fin k) = ninf
  simp [F64.div, sinf, hk.le]
theorem const_div_pinf {a : F64} {k : ℝ} (ha : a.Is k) : (a / pinf).Is 0 := by
  have : a / pinf = szero (¬ (a.isNeg ↔ pinf.isNeg)) := by
    change F64.div a pinf = _
    rcases ha with rfl | ⟨rfl, _⟩ <;> simp [F64.div]
  rw [this]; exact szero_is _

theorem ne_nan_of_ext {a b : F64} (h : a.ext = b.ext) (hb : b ≠ nan) : a ≠ nan := by
  rintro rfl
  cases b with
  | nan => exact hb rfl
  | _ => simp at h

theorem const_mul_ne_nan {a : F64} {k : ℝ} (hk : 0 < k) (ha : a ≠ nan) : fin k * a ≠ nan := by
  cases a with
  | nan => exact absurd rfl ha
  | pinf => rw [const_mul_pinf hk]; simp
  | ninf => rw [const_mul_ninf hk]; simp
  | negZero => exact ne_nan_of_ext (mul_fin_ext (Is.fin k) Is.negZero) (round_ne_nan _)
  | fin r => exact ne_nan_of_ext (mul_fin_ext (Is.fin k) (Is.fin r)) (round_ne_nan _)
theorem mul_const_ne_nan {a : F64} {k : ℝ} (hk : 0 < k) (ha : a ≠ nan) : a * fin k ≠ nan := by
  cases a with
  | nan => exact absurd rfl ha
  | pinf => rw [pinf_mul_const hk]; simp
  | ninf => rw [ninf_mul_const hk]; simp
  | negZero => exact ne_nan_of_ext (mul_fin_ext Is.negZero (Is.fin k)) (round_ne_nan _)
  | fin r => exact ne_nan_of_ext (mul_fin_ext (Is.fin r) (Is.fin k)) (round_ne_nan _)
theorem div_const_ne_nan {a : F64} {k : ℝ} (hk : 0 < k) (ha : a ≠ nan) : a / fin k ≠ nan := by
  cases a with
  | nan => exact absurd rfl ha
  | pinf => rw [pinf_div_const hk]; simp
  | ninf => rw [ninf_div_const hk]; simp
  | negZero => exact ne_nan_of_ext (div_fin_ext Is.negZero (Is.fin k) hk.ne') (round_ne_nan _)
  | fin r => exact ne_nan_of_ext (div_fin_ext (Is.fin r) (Is.fin k) hk.ne') (round_ne_nan _)

theorem const_mul_mono {a b : F64} {k : ℝ} (hk : 0 < k) (h : a ≤ b) : fin k * a ≤ fin k * b := by
  obtain ⟨ha, hb, h⟩ := le_cases.1 h
  rcases h with rfl | rfl | ⟨r, s, hr, hs, h⟩
  · rw [const_mul_ninf hk]; exact bot_le' (const_mul_ne_nan hk hb)
  · rw [const_mul_pinf hk]; exact le_top' (const_mul_ne_nan hk ha)
  · exact le_congr (mul_fin_ext (Is.fin k) hr).symm (mul_fin_ext (Is.fin k) hs).symm
      (round_mono (mul_le_mul_of_nonneg_left h hk.le))
theorem mul_const_mono {a b : F64} {k : ℝ} (hk : 0 < k) (h : a ≤ b) : a * fin k ≤ b * fin k := by
  obtain ⟨ha, hb, h⟩ := le_cases.1 h
  rcases h with rfl | rfl | ⟨r, s, hr, hs, h⟩
  · rw [ninf_mul_const hk]; exact bot_le' (mul_const_ne_nan hk hb)
  · rw [pinf_mul_const hk]; exact le_top' (mul_const_ne_nan hk ha)
  · exact le_congr (mul_fin_ext hr (Is.fin k)).symm (mul_fin_ext hs (Is.fin k)).symm
      (round_mono (mul_le_mul_of_nonneg_right h hk.le))
theorem div_const_mono {a b : F64} {k : ℝ} (hk : 0 < k) (h : a ≤ b) : a / fin k ≤ b / fin k := by
  obtain ⟨ha, hb, h⟩ := le_cases.1 h
  rcases h with rfl | rfl | ⟨r, s, hr, hs, h⟩
  · rw [ninf_div_const hk]; exact bot_le' (div_const_ne_nan hk hb)
  · rw [pinf_div_const hk]; exact le_top' (div_const_ne_nan hk ha)
  · exact le_congr (div_fin_ext hr (Is.fin k) hk.ne').symm (div_fin_ext hs (Is.fin k) hk.ne').symm
      (round_mono (by gcongr))

/-- `c / x` is non-increasing on positive `x` -/
theorem const_div_anti {a b : F64} {k : ℝ} (hk : 0 ≤ k) (ha : 0 < a) (h : a ≤ b) : fin k / b ≤ fin k / a := by
  rcases pos_cases ha with rfl | ⟨r, rfl, hr⟩
  · have : b = pinf := by
      rcases (le_cases.1 h).2.2 with h | h | ⟨r, s, hr, _⟩
      · cases h
      · exact h
      · rcases hr with h | ⟨h, _⟩ <;> cases h
    subst this
    exact le_rfl' (const_div_pinf (Is.fin k)).ne_nan
  · rcases pos_cases (lt_of_lt_of_le' ha h) with rfl | ⟨s, rfl, hs⟩
    · have h1 := const_div_pinf (Is.fin k)
      refine le_congr h1.ext_eq.symm (div_fin_ext (Is.fin k) (Is.fin r) hr.ne').symm ?_ (a := fin 0)
      exact round_nonneg (by positivity)
    · refine le_congr (div_fin_ext (Is.fin k) (Is.fin s) hs.ne').symm (div_fin_ext (Is.fin k) (Is.fin r) hr.ne').symm ?_
      exact round_mono (div_le_div_of_nonneg_left hk hr (fin_le_fin.1 h))

/-! ### square root -/
theorem sqrt_mono {a b : F64} (ha : 0 ≤ a) (h : a ≤ b) : a.sqrt ≤ b.sqrt := by
  have e : ∀ {c : F64} {r : ℝ}, c.Is r → 0 ≤ r → (c.sqrt).ext = (F64.round (Real.sqrt r)).ext := by
    rintro c r (rfl | ⟨rfl, rfl⟩) h0
    · simp [F64.sqrt, not_lt.2 h0]
    · simp [F64.sqrt, round_zero_is.ext_eq]
  rcases nonneg_cases ha with rfl | ⟨r, hr, h0⟩
  · have : b = pinf := by
      rcases (le_cases.1 h).2.2 with h | h | ⟨r, s, hr, _⟩
      · cases h
      · exact h
      · rcases hr with h | ⟨h, _⟩ <;> cases h
    subst this; exact le_rfl' (by simp [F64.sqrt])
  · rcases nonneg_cases (le_trans' ha h) with rfl | ⟨s, hs, h1⟩
    · exact le_top' (ne_nan_of_ext (e hr h0) (round_ne_nan _))
    · exact le_congr (e hr h0).symm (e hs h1).symm (round_mono (Real.sqrt_le_sqrt ((hr.le_iff hs).1 h)))
theorem sqrt_nonneg {a : F64} (ha : 0 ≤ a) : (0 : F64) ≤ a.sqrt := by
  have := sqrt_mono (a := negZero) (le_cases.2 ⟨by simp [show (0:F64) = fin 0 from rfl], by simp, Or.inr (Or.inr ⟨0, 0, Is.zero, Is.negZero, le_rfl⟩)⟩)
    (le_trans' (le_cases.2 ⟨by simp, by simp [show (0:F64) = fin 0 from rfl], Or.inr (Or.inr ⟨0, 0, Is.negZero, Is.zero, le_rfl⟩)⟩) ha)
  exact le_congr (a := negZero) (by simp [show (0:F64) = fin 0 from rfl]) rfl this
end

/-! ### libm -/
section
variable [FP.Lawful] [FP.Libm]

theorem exp_ne_nan {a : F64} (ha : a ≠ nan) : a.exp ≠ nan := by
  cases a <;> simp [F64.exp, round_ne_nan] at ha ⊢
theorem exp_fin {a : F64} {r : ℝ} (ha : a.Is r) : a.exp = F64.round (FP.fexp r) := by
  rcases ha with rfl | ⟨rfl, rfl⟩ <;> rfl
theorem exp_nonneg {a : F64} (ha : a ≠ nan) : (0 : F64) ≤ a.exp := by
  cases a with
  | nan => exact absurd rfl ha
  | pinf => exact le_top' (by simp [show (0:F64) = fin 0 from rfl])
  | ninf => exact le_rfl' (by simp [show (0:F64) = fin 0 from rfl])
  | negZero => exact round_nonneg (FP.Libm.exp_nonneg _)
  | fin r => exact round_nonneg (FP.Libm.exp_nonneg _)
theorem exp_mono {a b : F64} (h : a ≤ b) : a.exp ≤ b.exp := by
  obtain ⟨ha, hb, h⟩ := le_cases.1 h
  rcases h with rfl | rfl | ⟨r, s, hr, hs, h⟩
  · exact exp_nonneg hb
  · exact le_top' (exp_ne_nan ha)
  · rw [exp_fin hr, exp_fin hs]; exact round_mono (FP.Libm.exp_mono h)
theorem exp_zero {a : F64} (ha : a.Is 0) : a.exp = fin 1 := by
  rw [exp_fin ha, FP.Libm.exp_zero, round_one]
theorem exp_le_one {a : F64} (ha : a ≤ 0) : a.exp ≤ 1 := by
  have := exp_mono ha; rwa [exp_zero Is.zero] at this

/-- `powf` of a positive base and non-zero finite exponent -/
theorem powf_pos_ext {a e : F64} {r s : ℝ} (ha : a.Is r) (he : e.Is s) (hr : 0 < r) (hs : s ≠ 0) :
    a.powf e = F64.round (FP.fpow r s) := by
  have ea : a = fin r := ha.eq_fin hr.ne'
  have ee : e = fin s := he.eq_fin hs
  subst ea ee
  by_cases h1 : r = 1
  · subst h1; simp [F64.powf, hs, FP.Libm.pow_one, round_one]
  · simp [F64.powf, hs, h1, hr.ne', not_lt.2 hr.le]
theorem powf_zero_pos {a e : F64} {s : ℝ} (ha : a.Is 0) (he : e.Is s) (hs : 0 < s) : (a.powf e).Is 0 := by
  have ee : e = fin s := he.eq_fin hs.ne'
  subst ee
  rcases ha with rfl | ⟨rfl, _⟩
  · simp [F64.powf, hs.ne', hs]; exact szero_is _
  · simp [F64.powf, hs.ne', hs]; exact szero_is _
theorem powf_pinf_pos {e : F64} {s : ℝ} (he : e.Is s) (hs : 0 < s) : pinf.powf e = pinf := by
  have ee : e = fin s := he.eq_fin hs.ne'
  subst ee; simp [F64.powf, hs.ne', hs]
theorem powf_pinf_neg {e : F64} {s : ℝ} (he : e.Is s) (hs : s < 0) : pinf.powf e = fin 0 := by
  have ee : e = fin s := he.eq_fin hs.ne
  subst ee; simp [F64.powf, hs.ne, not_lt.2 hs.le]
theorem powf_zero_neg {e : F64} {s : ℝ} (he : e.Is s) (hs : s < 0) : (fin 0).powf e = pinf := by
  have ee : e = fin s := he.eq_fin hs.ne
  subst ee; simp [F64.powf, hs.ne, not_lt.2 hs.le, sinf]

/-- base-monotonicity of `powf`, positive exponent, on the non-negative half line -/
theorem powf_mono {a b e : F64} {s : ℝ} (he : e.Is s) (hs : 0 < s) (ha : 0 ≤ a) (h : a ≤ b) :
    (0 : F64) ≤ a.powf e ∧ a.powf e ≤ b.powf e := by
  have hpos : ∀ {c : F64} {r : ℝ}, c.Is r → 0 ≤ r → (0:F64) ≤ c.powf e := fun hc h0 => by
    rcases h0.eq_or_lt with rfl | h0
    · exact (Is.zero.le_iff (powf_zero_pos hc he hs)).2 le_rfl
    · rw [powf_pos_ext hc he h0 hs.ne']; exact round_nonneg (FP.Libm.pow_nonneg _ _ h0)
  rcases nonneg_cases ha with rfl | ⟨r, hr, h0⟩
  · have : b = pinf := by
      rcases (le_cases.1 h).2.2 with h | h | ⟨r, s, hr, _⟩
      · cases h
      · exact h
      · rcases hr with h | ⟨h, _⟩ <;> cases h
    subst this
    rw [powf_pinf_pos he hs]
    exact ⟨le_top' (by simp [show (0:F64) = fin 0 from rfl]), le_rfl' (by simp)⟩
  · refine ⟨hpos hr h0, ?_⟩
    rcases nonneg_cases (le_trans' ha h) with rfl | ⟨t, ht, h1⟩
    · rw [powf_pinf_pos he hs]; exact le_top' (ne_nan_right (hpos hr h0))
    · have hrt := (hr.le_iff ht).1 h
      rcases h0.eq_or_lt with rfl | h0
      · exact le_trans' ((powf_zero_pos hr he hs).le_iff Is.zero |>.2 le_rfl) (hpos ht h1)
      · rw [powf_pos_ext hr he h0 hs.ne', powf_pos_ext ht he (h0.trans_le hrt) hs.ne']
        exact round_mono (FP.Libm.pow_mono _ _ _ h0 hrt hs)
theorem powf_le_one {a e : F64} {s : ℝ} (he : e.Is s) (hs : 0 < s) (ha : 0 ≤ a) (h : a ≤ 1) : a.powf e ≤ 1 := by
  have := (powf_mono he hs ha h).2
  rwa [powf_pos_ext Is.one he one_pos hs.ne', FP.Libm.pow_one, round_one] at this
theorem powf_one {e : F64} : (1 : F64).powf e = 1 := by
  change (fin 1).powf e = fin 1
  simp [F64.powf]

/-- base-antitonicity of `powf` for a negative exponent, on positive bases and `+0.0` -/
theorem powf_anti {a b e : F64} {s : ℝ} (he : e.Is s) (hs : s < 0) (ha : 0 < a ∨ a = fin 0) (hb : 0 < b ∨ b = fin 0)
    (h : a ≤ b) : (0 : F64) ≤ b.powf e ∧ b.powf e ≤ a.powf e := by
  have hpos : ∀ {c : F64}, 0 < c ∨ c = fin 0 → (0:F64) ≤ c.powf e := by
    rintro c (hc | rfl)
    · rcases pos_cases hc with rfl | ⟨r, rfl, h0⟩
      · rw [powf_pinf_neg he hs]; exact le_rfl' (by simp [show (0:F64) = fin 0 from rfl])
      · rw [powf_pos_ext (Is.fin r) he h0 hs.ne]; exact round_nonneg (FP.Libm.pow_nonneg _ _ h0)
    · rw [powf_zero_neg he hs]; exact le_top' (by simp [show (0:F64) = fin 0 from rfl])
  refine ⟨hpos hb, ?_⟩
  rcases ha with ha | rfl
  · rcases pos_cases (lt_of_lt_of_le' ha h) with rfl | ⟨t, rfl, ht⟩
    · rw [powf_pinf_neg he hs]; exact hpos (Or.inl ha)
    · rcases pos_cases ha with rfl | ⟨r, rfl, hr⟩
      · rcases (le_cases.1 h).2.2 with h | h | ⟨r, s, hr, _⟩
        · cases h
        · cases h
        · rcases hr with h | ⟨h, _⟩ <;> cases h
      · rw [powf_pos_ext (Is.fin r) he hr hs.ne, powf_pos_ext (Is.fin t) he ht hs.ne]
        exact round_mono (FP.Libm.pow_anti _ _ _ hr (fin_le_fin.1 h) hs)
  · rw [powf_zero_neg he hs]; exact le_top' (ne_nan_right (hpos hb))

theorem ln_mono {a b : F64} (ha : 0 ≤ a) (h : a ≤ b) : a.ln ≤ b.ln := by
  have hz : ∀ {c : F64}, c.Is 0 → c.ln = ninf := by
    rintro c (rfl | ⟨rfl, _⟩) <;> simp [F64.ln, F64.logWith]
  have hp : ∀ {r : ℝ}, 0 < r → (fin r).ln = F64.round (FP.fln r) := fun hr => by
    simp [F64.ln, F64.logWith, hr.ne', not_lt.2 hr.le]
  have nn : ∀ {c : F64}, 0 ≤ c → c.ln ≠ nan := fun hc => by
    rcases nonneg_cases hc with rfl | ⟨r, hr, h0⟩
    · simp [F64.ln, F64.logWith]
    · rcases h0.eq_or_lt with rfl | h0
      · rw [hz hr]; simp
      · rw [hr.eq_fin h0.ne', hp h0]; exact round_ne_nan _
  rcases nonneg_cases ha with rfl | ⟨r, hr, h0⟩
  · have : b = pinf := by
      rcases (le_cases.1 h).2.2 with h | h | ⟨r, s, hr, _⟩
      · cases h
      · exact h
      · rcases hr with h | ⟨h, _⟩ <;> cases h
    subst this; exact le_rfl' (nn ha)
  · rcases nonneg_cases (le_trans' ha h) with rfl | ⟨t, ht, h1⟩
    · exact le_top' (nn ha)
    · rcases h0.eq_or_lt with rfl | h0
      · rw [hz hr]; exact bot_le' (nn (le_trans' ha h))
      · have hrt := (hr.le_iff ht).1 h
        rw [hr.eq_fin h0.ne', ht.eq_fin (h0.trans_le hrt).ne', hp h0, hp (h0.trans_le hrt)]
        exact round_mono (FP.Libm.ln_mono _ _ h0 hrt)
end
end F64
end Rstat

namespace Rstat
namespace F64
variable [FP] [FP.Lawful]

theorem pinf_of_pinf_le {b : F64} (h : pinf ≤ b) : b = pinf := by
  rcases (le_cases.1 h).2.2 with h | h | ⟨r, s, hr, _⟩
  · cases h
  · exact h
  · rcases hr with h | ⟨h, _⟩ <;> cases h

theorem ext_eq_of_le_le {a b : F64} (h : a ≤ b) (h' : b ≤ a) : a.ext = b.ext := by
  obtain ⟨x, y, hx, hy, hxy⟩ := h
  obtain ⟨y', x', hy', hx', hyx⟩ := h'
  rw [hx] at hx'; rw [hy] at hy'; cases hx'; cases hy'
  rw [hx, hy, le_antisymm hxy hyx]

theorem ext_le {a b : F64} (ha : a ≠ nan) (h : a.ext = b.ext) : a ≤ b ∧ b ≤ a := by
  cases a with
  | nan => exact absurd rfl ha
  | _ => exact ⟨⟨_, _, rfl, h.symm, le_rfl⟩, ⟨_, _, h.symm, rfl, le_rfl⟩⟩

theorem Is.of_ext {a b : F64} {r : ℝ} (ha : a.Is r) (h : a.ext = b.ext) : b.Is r := by
  rw [ha.ext_eq] at h
  cases b with
  | nan => simp at h
  | pinf => simp at h
  | ninf => simp at h
  | negZero =>
    simp at h
    have : r = 0 := by exact_mod_cast h
    subst this; exact Is.negZero
  | fin s =>
    simp at h
    have : r = s := by exact_mod_cast h
    subst this; exact Is.fin r

theorem neg_ext {a b : F64} (ha : a ≠ nan) (h : a.ext = b.ext) : (-a).ext = (-b).ext :=
  ext_eq_of_le_le (neg_anti (ext_le ha h).2) (neg_anti (ext_le ha h).1)

theorem round_neg_ext (r : ℝ) : (F64.round (-r)).ext = (-(F64.round r)).ext := by
  by_cases hr : r = 0
  · subst hr; rw [neg_zero, round_zero_is.ext_eq, round_zero_is.neg.ext_eq, neg_zero]
  by_cases hh : FP.huge (FP.rnd r)
  · have hh' : FP.huge (FP.rnd (-r)) := by rw [FP.Lawful.rnd_neg, FP.Lawful.huge_neg]; exact hh
    unfold F64.round
    rw [if_pos hh, if_pos hh']
    rcases lt_or_gt_of_ne hr with h | h
    · rw [if_pos (by linarith), if_neg (by linarith)]; rfl
    · rw [if_neg (by linarith), if_pos h]; rfl
  · have hh' : ¬ FP.huge (FP.rnd (-r)) := by rw [FP.Lawful.rnd_neg, FP.Lawful.huge_neg]; exact hh
    rw [(round_is hh').ext_eq, (round_is hh).neg.ext_eq, FP.Lawful.rnd_neg]

/-- negation commutes with division by a positive constant, up to the sign of zero -/
theorem neg_div_const_ext {a : F64} {k : ℝ} (hk : 0 < k) (ha : a ≠ nan) : ((-a) / fin k).ext = (-(a / fin k)).ext := by
  cases a with
  | nan => exact absurd rfl ha
  | pinf => rw [pinf_div_const hk]; change (ninf / fin k).ext = _; rw [ninf_div_const hk]; rfl
  | ninf => rw [ninf_div_const hk]; change (pinf / fin k).ext = _; rw [pinf_div_const hk]; rfl
  | negZero =>
    have h1 := div_fin_ext (Is.negZero.neg) (Is.fin k) hk.ne'
    have h2 := div_fin_ext Is.negZero (Is.fin k) hk.ne'
    rw [h1, neg_ext (div_const_ne_nan hk (by simp)) h2, neg_div, round_neg_ext]
  | fin r =>
    have h1 := div_fin_ext ((Is.fin r).neg) (Is.fin k) hk.ne'
    have h2 := div_fin_ext (Is.fin r) (Is.fin k) hk.ne'
    rw [h1, neg_ext (div_const_ne_nan hk (by simp)) h2, neg_div, round_neg_ext]

theorem div_const_ext {a b : F64} {k : ℝ} (hk : 0 < k) (ha : a ≠ nan) (h : a.ext = b.ext) :
    (a / fin k).ext = (b / fin k).ext :=
  ext_eq_of_le_le (div_const_mono hk (ext_le ha h).1) (div_const_mono hk (ext_le ha h).2)

/-- `c / x` is non-increasing on positive `x` and `+0.0` -/
theorem const_div_anti0 {a b : F64} {k : ℝ} (hk : 0 < k) (ha : 0 < a ∨ a = fin 0) (hb : 0 < b ∨ b = fin 0) (h : a ≤ b) :
    fin k / b ≤ fin k / a := by
  have e : fin k / fin 0 = pinf := by
    change F64.div (fin k) (fin 0) = pinf
    simp [F64.div, hk.ne', sinf, hk.le]
  rcases ha with ha | rfl
  · exact const_div_anti hk.le ha h
  · rw [e]
    rcases hb with hb | rfl
    · exact le_top' (ne_nan_left (const_div_anti hk.le hb (le_rfl' (ne_nan_right h))))
    · rw [e]; exact le_rfl' (by simp)

theorem const_div_nonneg0 {a : F64} {k : ℝ} (hk : 0 < k) (ha : 0 < a ∨ a = fin 0) : (0 : F64) ≤ fin k / a := by
  have hn : a ≠ nan := by
    rcases ha with h | rfl
    · exact ne_nan_right (le_of_lt' h)
    · simp
  have h1 := const_div_anti0 hk ha (Or.inl ⟨0, ⊤, rfl, rfl, EReal.zero_lt_top⟩) (le_top' hn)
  exact le_trans' ((Is.zero.le_iff (const_div_pinf (Is.fin k))).2 le_rfl) h1

/-- half of a float is a float below it -/
theorem Rep.half {a : F64} {r : ℝ} (ha : a.Rep r) (h0 : 0 ≤ r) : (a / 2).Is (FP.rnd (r / 2)) := by
  obtain ⟨hi, hr, hh⟩ := ha
  have h2 : ¬ FP.huge (FP.rnd (r / 2)) := fun h => hh (by
    refine FP.Lawful.huge_mono _ _ ?_ h
    have := FP.Lawful.rnd_mono (by linarith : r / 2 ≤ r)
    rw [hr] at this
    rw [abs_of_nonneg h0, abs_of_nonneg (rnd_nonneg (by linarith))]; exact this)
  exact (round_is h2).of_ext (div_fin_ext hi (Is.num 2) two_ne_zero).symm

/-- the square root of a positive float is a positive float -/
theorem Rep.sqrt {a : F64} {r : ℝ} (ha : a.Rep r) (h0 : 0 < r) : ∃ s, a.sqrt = fin s ∧ 0 < s ∧ s = FP.rnd (Real.sqrt r) := by
  obtain ⟨hi, hr, hh⟩ := ha
  have e := hi.eq_fin h0.ne'
  subst e
  have hle : Real.sqrt r ≤ Max.max 1 r := by
    rw [Real.sqrt_le_left (le_max_of_le_left zero_le_one)]
    rcases le_total 1 r with h | h
    · rw [max_eq_right h]; nlinarith
    · rw [max_eq_left h]; linarith
  have hge : Min.min 1 r ≤ Real.sqrt r := by
    rcases le_total 1 r with h | h
    · rw [min_eq_left h]; exact Real.one_le_sqrt.2 h
    · rw [min_eq_right h]; exact (Real.le_sqrt' h0).2 (by nlinarith)
  have rm : FP.rnd (Min.min 1 r) = Min.min 1 r := by rcases min_choice 1 r with h | h <;> rw [h] <;> [exact rnd_one; exact hr]
  have rM : FP.rnd (Max.max 1 r) = Max.max 1 r := by rcases max_choice 1 r with h | h <;> rw [h] <;> [exact rnd_one; exact hr]
  have hM : ¬ FP.huge (Max.max 1 r) := by rcases max_choice 1 r with h | h <;> rw [h] <;> [exact not_huge_one; exact hh]
  have pos : 0 < FP.rnd (Real.sqrt r) := by
    have := FP.Lawful.rnd_mono hge
    rw [rm] at this
    exact lt_of_lt_of_le (lt_min one_pos h0) this
  have nh : ¬ FP.huge (FP.rnd (Real.sqrt r)) := fun h => hM (by
    refine FP.Lawful.huge_mono _ _ ?_ h
    have := FP.Lawful.rnd_mono hle
    rw [rM] at this
    rw [abs_of_pos pos, abs_of_pos (lt_of_lt_of_le one_pos (le_max_left _ _))]; exact this)
  refine ⟨_, ?_, pos, rfl⟩
  change F64.sqrt (fin r) = _
  rw [F64.sqrt, if_neg (not_lt.2 h0.le)]
  exact (round_is nh).eq_fin pos.ne'

theorem mul_self_mono {a b : F64} (ha : 0 ≤ a) (h : a ≤ b) : (0:F64) ≤ a * a ∧ a * a ≤ b * b := by
  have e : pinf * pinf = pinf := by change F64.mul pinf pinf = pinf; simp [F64.mul, sinf]
  have nn : ∀ {c : F64}, 0 ≤ c → (0 : F64) ≤ c * c := fun hc => by
    rcases nonneg_cases hc with rfl | ⟨r, hr, h0⟩
    · rw [e]; exact le_top' Is.zero.ne_nan
    · exact le_congr rfl (mul_fin_ext hr hr).symm (round_nonneg (mul_nonneg h0 h0))
  refine ⟨nn ha, ?_⟩
  rcases nonneg_cases (le_trans' ha h) with rfl | ⟨s, hs, hs0⟩
  · rw [e]; exact le_top' (ne_nan_right (nn ha))
  · rcases nonneg_cases ha with rfl | ⟨r, hr, hr0⟩
    · have := pinf_of_pinf_le h; subst this
      rcases hs with h | ⟨h, _⟩ <;> cases h
    · have hrs := (hr.le_iff hs).1 h
      exact le_congr (mul_fin_ext hr hr).symm (mul_fin_ext hs hs).symm (round_mono (mul_self_le_mul_self hr0 hrs))

end F64
end Rstat
