import Verif.Props.FloatCdf3

/-! C206: Uniform in binary64. -/
namespace Rstat
open F64 Spec Consts
set_option linter.unusedSectionVars false

theorem nonneg_mul {a : F64} {k : ℝ} [FP] [FP.Lawful] (hk : 0 < k) (ha : 0 ≤ a) : (0:F64) ≤ a * fin k := by
  refine le_trans' ?_ (mul_const_mono hk ha)
  refine le_congr rfl (mul_fin_ext Is.zero (Is.fin k)).symm ?_
  rw [zero_mul]; exact (Is.zero.le_iff round_zero_is).2 le_rfl

theorem sub_nonneg' {a l : F64} [FP] [FP.Lawful] (hl : l.isFinite) (h : l ≤ a) : (0:F64) ≤ a - l := by
  refine le_trans' ?_ (sub_const_mono hl.is h)
  have e : (l - l).Is 0 := by
    rcases add_eq_round hl.is hl.is.neg with h' | ⟨h', h'', _⟩
    · change (l + -l).Is 0
      rw [h', add_neg_cancel]; exact round_zero_is
    · rw [h'] at h''; cases h''
  exact (Is.zero.le_iff e).2 le_rfl

/-- C206 (violation): when the reciprocal of the width overflows (widths below 2^-1024 in binary64) the Uniform cdf at the lower end of
the support is `0 * inf`, NaN. -/
theorem C206_uniform_tiny_violated [FP] [FP.Lawful] {a b : F64} {d : UniformF} (h : UniformF.new a b = .ok d) (ha : a.isFinite)
    (hb : 1 / b = pinf) (hab : a < d.support.2) : (d.cdf d.support.1).val = nan := by
  obtain ⟨h0, rfl⟩ := UniformF.new_ok.1 h
  change a < a + b at hab
  have haa : a ≤ a := le_rfl' ha.is.ne_nan
  have e : (UniformF.cdf ⟨a, b, 1 / b⟩ a).val = (a - a) * (1 / b) := by
    unfold UniformF.cdf
    simp only
    rw [if_neg (not_lt_of_le' haa), if_neg (fun h => not_lt_of_le' h hab)]
    rfl
  change (UniformF.cdf ⟨a, b, 1 / b⟩ a).val = nan
  rw [e, hb]
  have e0 : (a - a).Is 0 := by
    rcases add_eq_round ha.is ha.is.neg with h' | ⟨h', h'', _⟩
    · change (a + -a).Is 0
      rw [h', add_neg_cancel]; exact round_zero_is
    · rw [h'] at h''; cases h''
  rcases e0 with h | ⟨h, _⟩ <;> rw [h]
  · change F64.mul (fin 0) pinf = nan; simp [F64.mul]
  · change F64.mul negZero pinf = nan; simp [F64.mul]

section
attribute [local instance] binary64 binary64_lawful B64.libm
open B64

/-- C206: Uniform in binary64 — for every lower bound and every width between 2^-1022 and 2^1022 whose upper bound is finite, the cdf is a
distribution function over all binary64 numbers: never NaN, never above 1, monotone. -/
theorem C206_uniform_partial {a b : F64} {l w u : ℝ} {d : UniformF} (h : UniformF.new a b = .ok d) (ha : a.Rep l) (hb : b.Rep w)
    (h1 : (2:ℝ) ^ (-1022:ℤ) ≤ w) (h2 : w ≤ 2 ^ (1022:ℤ)) (hu : d.support.2.Is u) : FloatCDF64 d.cdf ninf pinf := by
  obtain ⟨h0, rfl⟩ := UniformF.new_ok.1 h
  have hw : 0 < w := pos_of_lt h0 hb.1
  change (a + b).Is u at hu
  have eb := hb.1.eq_fin hw.ne'
  subst eb
  have haf : a.isFinite := ha.1.isFinite
  -- the reciprocal
  have hiw1 : (2:ℝ) ^ (-1022:ℤ) ≤ 1 / w := by
    rw [le_div_iff₀ hw]
    calc (2:ℝ) ^ (-1022:ℤ) * w ≤ 2 ^ (-1022:ℤ) * 2 ^ (1022:ℤ) := by gcongr
      _ = 1 := by rw [← zpow_add₀ (by norm_num)]; norm_num
  have hiw2 : 1 / w ≤ 2 ^ (1022:ℤ) := by
    rw [div_le_iff₀ hw]
    calc (1:ℝ) = 2 ^ (1022:ℤ) * 2 ^ (-1022:ℤ) := by rw [← zpow_add₀ (by norm_num)]; norm_num
      _ ≤ 2 ^ (1022:ℤ) * w := by gcongr
  have hiw0 : 0 < 1 / w := by positivity
  have herr := rnd_err_normal (x := 1 / w) (by rw [abs_of_pos hiw0]; exact hiw1)
  rw [abs_of_pos hiw0, abs_le] at herr
  have hp0 : 0 < B64.rnd (1 / w) := by
    have h53 : 1 / w / 2 ^ 53 < 1 / w := div_lt_self hiw0 (by norm_num)
    linarith [herr.1]
  have hnh : ¬ FP.huge (B64.rnd (1 / w)) := by
    refine binary64_lawful.not_huge _ ?_
    rw [abs_of_pos hp0]
    have h53 : 1 / w / 2 ^ 53 ≤ 1 / w := div_le_self hiw0.le (by norm_num)
    have e1 : (2:ℝ) ^ (1023:ℕ) = 2 ^ (1022:ℤ) * 2 := by
      rw [show (1023:ℕ) = 1022 + 1 from rfl, pow_succ]; rfl
    rw [e1]
    generalize (2:ℝ) ^ (1022:ℤ) = T at hiw2 ⊢
    linarith [herr.2]
  have hp : (1 / fin w : F64) = fin (B64.rnd (1 / w)) :=
    (div_is Is.one (Is.fin w) hw.ne' hnh).eq_fin hp0.ne'
  generalize hP : B64.rnd (1 / w) = P at hp hp0 herr
  have hwP : w * P ≤ 1 + 1 / 2 ^ 53 := by
    have : w * P ≤ w * (1 / w + 1 / w / 2 ^ 53) := by gcongr; linarith [herr.2]
    refine this.trans (le_of_eq ?_)
    field_simp
  classical
  have cdf_eq : ∀ x, (UniformF.cdf ⟨a, fin w, 1 / fin w⟩ x).val =
      if x < a then 0 else if a + fin w ≤ x then 1 else (x - a) * fin P := fun x => by
    unfold UniformF.cdf
    simp only [hp]
    split_ifs <;> rfl
  have mid : ∀ x, IsF64 x → a ≤ x → x < a + fin w → (x - a) * fin P ≤ 1 := fun x hx hax hxu => by
    obtain ⟨hxi, hx1, hx2⟩ := is_of_le_le ha.1 hu hax (le_of_lt' hxu)
    generalize x.toReal = r at hxi hx1 hx2
    have hru : r < u := (hxi.lt_iff hu).1 hxu
    obtain ⟨hr, hrh⟩ := hx r hxi
    have hrl : r ≤ l + w := by
      by_contra hc
      push Not at hc
      have h3 := rnd_mono hc.le
      have hu' : u = B64.rnd (l + w) := by
        by_cases hh : FP.huge (B64.rnd (l + w))
        · have := add_ext ha.1 (Is.fin w)
          rw [hu.ext_eq] at this
          have hr : F64.round (l + w) = if 0 < l + w then pinf else ninf := by exact if_pos hh
          rw [hr] at this
          split_ifs at this <;> simp [F64.ext] at this
        · exact hu.eq (add_is ha.1 (Is.fin w) hh)
      change B64.rnd r = r at hr
      rw [hr] at h3
      linarith
    have hsub : x - a ≤ fin w := by
      refine le_congr (add_ext hxi ha.1.neg).symm rfl (round_le_of_le (by linarith) hb.2.1 hb.2.2)
    have hsub0 : (0:F64) ≤ x - a := sub_nonneg' haf hax
    obtain ⟨hz, hz0, hz1⟩ := is_of_le_le Is.zero (Is.fin w) hsub0 hsub
    generalize (x - a).toReal = z at hz hz0 hz1
    refine le_congr (mul_fin_ext hz (Is.fin P)).symm rfl ?_
    have hzP : z * P ≤ 1 + 1 / 2 ^ 53 := le_trans (by gcongr) hwP
    have hz0' : 0 ≤ B64.rnd (z * P) := B64.rnd_nonneg (by positivity)
    have hle := rnd_le_one' hzP
    have hn : ¬ FP.huge (B64.rnd (z * P)) := not_huge_small (by rw [abs_of_nonneg hz0']; linarith)
    exact ((round_is hn).le_iff Is.one).2 hle
  have low : ∀ x, a ≤ x → (0:F64) ≤ (x - a) * fin P := fun x hax => nonneg_mul hp0 (sub_nonneg' haf hax)
  have z1 : (0:F64) ≤ 0 := (Is.zero.le_iff Is.zero).2 le_rfl
  have o1 : (1:F64) ≤ 1 := (Is.one.le_iff Is.one).2 le_rfl
  have valid : ∀ x, IsF64 x → x ≠ nan → (0:F64) ≤ (UniformF.cdf ⟨a, fin w, 1 / fin w⟩ x).val ∧
      (UniformF.cdf ⟨a, fin w, 1 / fin w⟩ x).val ≤ 1 := fun x hx hn => by
    rw [cdf_eq]
    split_ifs with c1 c2
    · exact ⟨z1, zero_le_one'⟩
    · exact ⟨zero_le_one', o1⟩
    · have hax : a ≤ x := (le_total' ha.1.ne_nan hn).resolve_right c1
      have hxu : x < a + fin w := (le_total' hu.ne_nan hn).resolve_left c2
      exact ⟨low x hax, mid x hx hax hxu⟩
  refine ⟨fun x y hx hy _ hxy _ => ?_, fun x hx h1 _ => valid x hx (ne_nan_right h1), ?_, ?_⟩
  · have hnx := ne_nan_left hxy
    have hny := ne_nan_right hxy
    have vx := valid x hx hnx
    have vy := valid y hy hny
    by_cases c1 : x < a
    · rw [cdf_eq x, if_pos c1]; exact vy.1
    by_cases c2 : a + fin w ≤ y
    · have hax : a ≤ x := (le_total' ha.1.ne_nan hnx).resolve_right c1
      rw [cdf_eq y, if_neg (not_lt_of_le' (le_trans' hax hxy)), if_pos c2]
      exact vx.2
    · have hax : a ≤ x := (le_total' ha.1.ne_nan hnx).resolve_right c1
      have c3 : ¬ a + fin w ≤ x := fun h => c2 (le_trans' h hxy)
      rw [cdf_eq y, if_neg (not_lt_of_le' (le_trans' hax hxy)), if_neg c2, cdf_eq x, if_neg c1, if_neg c3]
      exact mul_const_mono hp0 (sub_const_mono ha.1 hxy)
  · rw [cdf_eq, if_pos (Rstat.ninf_lt ha.1)]; exact Is.zero
  · rw [cdf_eq, if_neg (not_lt_of_le' (le_top' ha.1.ne_nan)), if_pos (le_top' hu.ne_nan)]; exact Is.one

/-- C206 (violation): for widths above 2^1022 the reciprocal is subnormal and has lost precision: `Uniform::new(0, 7·2^1021)` has
`cdf(x) > 1` at the largest f64 below its upper bound. -/
theorem C206_uniform_wide_violated : ∃ d x v, UniformF.new (fin 0) (fin (7 * 2 ^ (1021:ℤ))) = .ok d ∧ IsF64 x ∧
    x < d.support.2 ∧ (d.cdf x).val.Is v ∧ 1 < v := by
  have hx : B64.rnd (((7 * 2 ^ 50 - 1 : ℤ) : ℝ) * 2 ^ (971:ℤ)) = ((7 * 2 ^ 50 - 1 : ℤ) : ℝ) * 2 ^ (971:ℤ) :=
    rnd_repr _ _ (by norm_num) (by norm_num)
  have hw : B64.rnd (7 * 2 ^ (1021:ℤ)) = 7 * 2 ^ (1021:ℤ) := by
    have := rnd_repr 7 1021 (by norm_num) (by norm_num); exact_mod_cast this
  have e1 : (2:ℝ) ^ (1021:ℤ) = 2 ^ (971:ℤ) * 2 ^ 50 := by rw [← zpow_natCast, ← zpow_add₀ (by norm_num)]; norm_num
  have e2 : (2:ℝ) ^ (1024:ℕ) = 2 ^ (971:ℤ) * 2 ^ 53 := by
    rw [← zpow_natCast, ← zpow_natCast, ← zpow_add₀ (by norm_num)]; norm_num
  have hT : (0:ℝ) < 2 ^ (971:ℤ) := two_zpow_pos _
  have hxh : ¬ FP.huge (((7 * 2 ^ 50 - 1 : ℤ) : ℝ) * 2 ^ (971:ℤ)) := by
    change ¬ ((2:ℝ) ^ 1024 ≤ |_|)
    rw [abs_of_pos (by positivity), e2]
    generalize (2:ℝ) ^ (971:ℤ) = T at hT ⊢
    push_cast; nlinarith
  have hwh : ¬ FP.huge ((7:ℝ) * 2 ^ (1021:ℤ)) := by
    change ¬ ((2:ℝ) ^ 1024 ≤ |_|)
    rw [abs_of_pos (by positivity), e2, e1]
    generalize (2:ℝ) ^ (971:ℤ) = T at hT ⊢
    nlinarith
  have hw0 : (0:ℝ) < 7 * 2 ^ (1021:ℤ) := by positivity
  have e3 : (1:ℝ) / (7 * 2 ^ (1021:ℤ)) = 2 ^ (-1021:ℤ) / 7 := by
    rw [zpow_neg]; field_simp
  have hp : B64.rnd (1 / (7 * 2 ^ (1021:ℤ))) = ((1286742750677285:ℤ) : ℝ) * 2 ^ (-1074:ℤ) := by
    have e4 : (2:ℝ) ^ (-1021:ℤ) = 2 ^ (-1074:ℤ) * 2 ^ 53 := by rw [← zpow_natCast, ← zpow_add₀ (by norm_num)]; norm_num
    have e5 : (2:ℝ) ^ (-1021:ℤ) = 2 ^ (-1022:ℤ) * 2 := by rw [← zpow_add_one₀ (by norm_num)]; norm_num
    rw [e3]
    refine rnd_eq_sub _ (by positivity) ?_ ?_
    · rw [e5]; have := two_zpow_pos (-1022); nlinarith
    · have e6 : (2:ℝ) ^ (-1021:ℤ) / 7 / 2 ^ (-1074:ℤ) = 2 ^ 53 / 7 := by
        rw [e4]; have := (two_zpow_pos (-1074)).ne'; field_simp
      rw [e6, abs_lt]; norm_num
  have hpp : (1 / fin (7 * 2 ^ (1021:ℤ)) : F64) = fin (((1286742750677285:ℤ) : ℝ) * 2 ^ (-1074:ℤ)) := by
    refine ((div_is Is.one (Is.fin _) hw0.ne' ?_).congr hp).eq_fin (by positivity)
    change ¬ FP.huge (B64.rnd _)
    rw [hp]
    refine not_huge_small ?_
    rw [abs_of_pos (by positivity)]
    have e7 : (2:ℝ) ^ (-1074:ℤ) ≤ 2 ^ (-60:ℤ) := zpow_le_zpow_right₀ (by norm_num) (by norm_num)
    calc ((1286742750677285:ℤ) : ℝ) * 2 ^ (-1074:ℤ) ≤ ((1286742750677285:ℤ) : ℝ) * 2 ^ (-60:ℤ) := by gcongr
      _ ≤ 10 := by rw [zpow_neg]; norm_num
  have hsup : fin 0 + fin (7 * 2 ^ (1021:ℤ)) = fin (7 * 2 ^ (1021:ℤ)) := by
    refine ((add_is (Is.fin 0) (Is.fin _) ?_).congr ?_).eq_fin hw0.ne'
    · rw [zero_add]; change ¬ FP.huge (B64.rnd _); rw [hw]; exact hwh
    · rw [zero_add]; exact hw
  have hlt : ((7 * 2 ^ 50 - 1 : ℤ) : ℝ) * 2 ^ (971:ℤ) < 7 * 2 ^ (1021:ℤ) := by
    rw [e1]
    generalize (2:ℝ) ^ (971:ℤ) = T at hT ⊢
    push_cast; nlinarith
  have hx0 : (0:ℝ) < ((7 * 2 ^ 50 - 1 : ℤ) : ℝ) * 2 ^ (971:ℤ) := by positivity
  refine ⟨⟨fin 0, fin (7 * 2 ^ (1021:ℤ)), 1 / fin (7 * 2 ^ (1021:ℤ))⟩, fin (((7 * 2 ^ 50 - 1 : ℤ) : ℝ) * 2 ^ (971:ℤ)), 1 + 1 / 2 ^ 52,
    UniformF.new_ok.2 ⟨fin_lt_fin.2 hw0, rfl⟩, ?_, ?_, ?_, by norm_num⟩
  · intro r hr
    rw [← (Is.fin _).eq hr]; exact ⟨hx, hxh⟩
  · change _ < fin 0 + fin (7 * 2 ^ (1021:ℤ))
    rw [hsup]; exact fin_lt_fin.2 hlt
  · have e : (UniformF.cdf ⟨fin 0, fin (7 * 2 ^ (1021:ℤ)), 1 / fin (7 * 2 ^ (1021:ℤ))⟩ (fin (((7 * 2 ^ 50 - 1 : ℤ) : ℝ) * 2 ^ (971:ℤ)))).val
        = (fin (((7 * 2 ^ 50 - 1 : ℤ) : ℝ) * 2 ^ (971:ℤ)) - fin 0) * (1 / fin (7 * 2 ^ (1021:ℤ))) := by
      unfold UniformF.cdf
      simp only
      rw [if_neg (fun h => by have := fin_lt_fin.1 h; linarith), if_neg (fun h => by rw [hsup] at h; have := fin_le_fin.1 h; linarith)]
      rfl
    rw [e, hpp]
    have es : (fin (((7 * 2 ^ 50 - 1 : ℤ) : ℝ) * 2 ^ (971:ℤ)) - fin 0).Is (((7 * 2 ^ 50 - 1 : ℤ) : ℝ) * 2 ^ (971:ℤ)) := by
      refine (sub_is (Is.fin _) (Is.fin 0) ?_).congr ?_
      · rw [sub_zero]; change ¬ FP.huge (B64.rnd _); rw [hx]; exact hxh
      · rw [sub_zero]; exact hx
    have e8 : ((7 * 2 ^ 50 - 1 : ℤ) : ℝ) * 2 ^ (971:ℤ) * (((1286742750677285:ℤ) : ℝ) * 2 ^ (-1074:ℤ))
        = ((7 * 2 ^ 50 - 1 : ℤ) : ℝ) * ((1286742750677285:ℤ) : ℝ) / 2 ^ 103 := by
      have : (2:ℝ) ^ (-1074:ℤ) = 2 ^ (-971:ℤ) / 2 ^ 103 := by
        rw [eq_div_iff (by positivity), ← zpow_natCast, ← zpow_add₀ (by norm_num)]; norm_num
      rw [this, zpow_neg]; field_simp
    have r : B64.rnd (((7 * 2 ^ 50 - 1 : ℤ) : ℝ) * 2 ^ (971:ℤ) * (((1286742750677285:ℤ) : ℝ) * 2 ^ (-1074:ℤ))) = 1 + 1 / 2 ^ 52 := by
      rw [e8]
      have := rnd_eq (x := ((7 * 2 ^ 50 - 1 : ℤ) : ℝ) * ((1286742750677285:ℤ) : ℝ) / 2 ^ 103) (2 ^ 52 + 1) (-52) (by norm_num)
        (by norm_num) (by norm_num) (by rw [abs_lt, zpow_neg]; norm_num)
      rw [this, zpow_neg]; norm_num
    refine (mul_is es (Is.fin _) ?_).congr r
    change ¬ FP.huge (B64.rnd _)
    rw [r]; exact not_huge_small (by norm_num)

example : ∃ d, UniformF.new (fin (1:ℕ)) (fin (3:ℕ)) = .ok d ∧ FloatCDF64 d.cdf ninf pinf := by
  have h : UniformF.new (fin (1:ℕ)) (fin (3:ℕ)) = .ok ⟨fin (1:ℕ), fin (3:ℕ), 1 / fin (3:ℕ)⟩ :=
    UniformF.new_ok.2 ⟨fin_lt_fin.2 (by norm_num), rfl⟩
  have r : ∀ n : ℕ, n ≤ 2 ^ 10 → (fin (n:ℝ)).Rep n := fun n hn =>
    ⟨Is.fin _, rnd_natCast n (hn.trans (by norm_num)), FP.Lawful.not_huge _ (by
      rw [abs_of_nonneg (by positivity)]
      have h1 : (n:ℝ) ≤ 2 ^ 10 := by exact_mod_cast hn
      exact h1.trans (pow_le_pow_right₀ (by norm_num) (by norm_num)))⟩
  refine ⟨_, h, C206_uniform_partial h (r 1 (by norm_num)) (r 3 (by norm_num)) ?_ ?_ (u := 4) ?_⟩
  · exact (zpow_le_zpow_right₀ (by norm_num) (show (-1022:ℤ) ≤ 0 by norm_num)).trans (by norm_num)
  · refine le_trans ?_ (zpow_le_zpow_right₀ (by norm_num) (show (2:ℤ) ≤ 1022 by norm_num)); norm_num
  · exact (fin_ops 4 (by norm_num) (by norm_num)).congr (by norm_num : ((4:ℤ):ℝ) = 4)

/-- a subnormal width: the cdf of the uniform distribution on `[0, 2^-1030]` is NaN at 0 -/
example : ∃ d, UniformF.new (fin 0) (fin (2 ^ (-1030:ℤ))) = .ok d ∧ (d.cdf (fin 0)).val = nan := by
  have h : UniformF.new (fin 0) (fin (2 ^ (-1030:ℤ))) = .ok ⟨fin 0, fin (2 ^ (-1030:ℤ)), 1 / fin (2 ^ (-1030:ℤ))⟩ :=
    UniformF.new_ok.2 ⟨fin_lt_fin.2 (two_zpow_pos _), rfl⟩
  have r : B64.rnd (2 ^ (-1030:ℤ)) = 2 ^ (-1030:ℤ) := by
    have := rnd_repr 1 (-1030) (by norm_num) (by norm_num); simpa using this
  have nh : ¬ FP.huge ((2:ℝ) ^ (-1030:ℤ)) := not_huge_small (by
    rw [abs_of_pos (two_zpow_pos _)]
    exact (zpow_le_zpow_right₀ (by norm_num) (show (-1030:ℤ) ≤ 0 by norm_num)).trans (by norm_num))
  refine ⟨_, h, C206_uniform_tiny_violated h trivial ?_ ?_⟩
  · rw [div_finite Is.one (Is.fin _) (two_zpow_pos _).ne', if_neg one_ne_zero]
    have e : (1:ℝ) / 2 ^ (-1030:ℤ) = 2 ^ (1030:ℤ) := by rw [zpow_neg, one_div, inv_inv]
    have r2 : B64.rnd (2 ^ (1030:ℤ)) = 2 ^ (1030:ℤ) := by
      have := rnd_repr 1 1030 (by norm_num) (by norm_num); simpa using this
    rw [e]
    have hh : FP.huge (B64.rnd (2 ^ (1030:ℤ))) := by
      rw [r2]
      change (2:ℝ) ^ 1024 ≤ |_|
      rw [abs_of_pos (two_zpow_pos _)]
      exact zpow_le_zpow_right₀ (by norm_num) (show (1024:ℤ) ≤ 1030 by norm_num)
    have : F64.round (2 ^ (1030:ℤ)) = if (0:ℝ) < 2 ^ (1030:ℤ) then pinf else ninf := if_pos hh
    rw [this, if_pos (two_zpow_pos _)]
  · change fin 0 < fin 0 + fin _
    refine lt_of_lt_of_le' (b := fin (2 ^ (-1030:ℤ))) (fin_lt_fin.2 (two_zpow_pos _)) ?_
    refine le_congr rfl (add_ext (Is.fin 0) (Is.fin _)).symm ?_
    rw [zero_add]
    exact ((Is.fin _).le_iff ((round_is (by change ¬ FP.huge (B64.rnd _); rw [r]; exact nh)).congr r)).2 le_rfl
end
end Rstat
