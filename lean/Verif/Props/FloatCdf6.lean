import Verif.Props.FloatCdf4
import Verif.Props.Dist.Triangular
import Verif.Props.Dist.Cosine

/-! C207: triangular and raised cosine distribution functions in rounded arithmetic. -/
namespace Rstat
open F64 Spec Consts
set_option linter.unusedSectionVars false

section
variable [FP] [FP.Lawful] [FP.Libm]

/-- C207 (violation): a triangular distribution whose left part is wide enough for `(c-a)^2` to overflow has `cdf(c) = +inf` -/
theorem C207_triangular_wide_violated {a p q : F64} {u w : ℝ} {d : Triangular} (h : Triangular.new a p q = .ok d)
    (hu : (d.c - d.a).Is u) (hu0 : 0 < u) (hw : (d.b - d.a).Is w) (hw0 : 0 < w) (hc : d.a < d.c) (ho : (d.c - d.a) * (d.c - d.a) = pinf) :
    (d.cdf d.c).val = pinf := by
  have e : (d.cdf d.c).val = (d.c - d.a) * (d.c - d.a) / (d.b - d.a) / (d.c - d.a) := by
    unfold Triangular.cdf
    rw [if_neg (fun h => not_lt_of_le' h hc), if_pos (le_rfl' (ne_nan_right (le_of_lt' hc)))]; rfl
  rw [e, ho, hw.eq_fin hw0.ne', hu.eq_fin hu0.ne', pinf_div_const hw0, pinf_div_const hu0]

theorem div_nonneg' {x : F64} {k : ℝ} (hk : 0 < k) (h : 0 ≤ x) : (0:F64) ≤ x / fin k := by
  refine le_trans' (le_congr rfl (div_fin_ext Is.zero (Is.fin k) hk.ne').symm ?_) (div_const_mono hk h)
  rw [zero_div]; exact (Is.zero.le_iff round_zero_is).2 le_rfl

/-- C207: the triangular cdf, when the two half-widths and the width are computed as finite positive numbers: non-decreasing and
non-negative up to the peak, non-decreasing and at most 1 beyond it, 0 up to `a` and 1 above `b`. -/
theorem C207_triangular_partial {a p q : F64} {u v w : ℝ} {d : Triangular} (h : Triangular.new a p q = .ok d)
    (ha : a.isFinite) (hcf : d.c.isFinite) (hbf : d.b.isFinite) (hu : (d.c - d.a).Is u) (hu0 : 0 < u) (hv : (d.b - d.c).Is v) (hv0 : 0 < v)
    (hw : (d.b - d.a).Is w) (hw0 : 0 < w) (hac : d.a ≤ d.c) (hcb : d.c ≤ d.b) :
    (∀ x y : F64, x ≤ y → y ≤ d.c → 0 ≤ (d.cdf x).val ∧ (d.cdf x).val ≤ (d.cdf y).val) ∧
    (∀ x y : F64, d.c < x → x ≤ y → (d.cdf x).val ≤ (d.cdf y).val ∧ (d.cdf y).val ≤ 1) ∧
    (∀ x : F64, x ≤ a → (d.cdf x).val = 0) ∧ (∀ x : F64, d.b < x → (d.cdf x).val = 1) := by
  classical
  obtain ⟨h0, h1, hd⟩ := Triangular.new_ok.1 h
  have hda : d.a = a := by rw [hd]
  have haf : d.a.isFinite := hda ▸ ha
  have eu := hu.eq_fin hu0.ne'
  have ev := hv.eq_fin hv0.ne'
  have ew := hw.eq_fin hw0.ne'
  have eq : ∀ x, (d.cdf x).val = if x ≤ d.a then 0 else if x ≤ d.c then (x - d.a) * (x - d.a) / fin w / fin u
      else if x ≤ d.b then 1 - (d.b - x) * (d.b - x) / fin w / fin v else 1 := fun x => by
    unfold Triangular.cdf
    rw [eu, ev, ew]
    split_ifs <;> rfl
  have lo : ∀ {x y : F64}, d.a ≤ x → x ≤ y → (0:F64) ≤ (x - d.a) * (x - d.a) / fin w / fin u ∧
      (x - d.a) * (x - d.a) / fin w / fin u ≤ (y - d.a) * (y - d.a) / fin w / fin u := fun {x y} hx hxy => by
    have g := mul_self_mono (sub_nonneg' haf hx) (sub_const_mono haf.is hxy)
    exact ⟨div_nonneg' hu0 (div_nonneg' hw0 g.1), div_const_mono hu0 (div_const_mono hw0 g.2)⟩
  have hi : ∀ {x y : F64}, x ≤ y → y ≤ d.b → 1 - (d.b - x) * (d.b - x) / fin w / fin v ≤ 1 - (d.b - y) * (d.b - y) / fin w / fin v ∧
      1 - (d.b - y) * (d.b - y) / fin w / fin v ≤ 1 := fun {x y} hxy hy => by
    have hn : (0:F64) ≤ d.b - y := by
      refine le_trans' ?_ (const_sub_anti hbf.is hy)
      have := sub_nonneg' hbf (le_rfl' (hbf.is.ne_nan)); exact this
    have g := mul_self_mono hn (const_sub_anti hbf.is hxy)
    refine ⟨const_sub_anti Is.one (div_const_mono hv0 (div_const_mono hw0 g.2)), ?_⟩
    refine le_trans' (const_sub_anti Is.one (div_nonneg' hv0 (div_nonneg' hw0 g.1))) ?_
    exact ((one_sub_zero Is.zero).le_iff Is.one).2 le_rfl
  refine ⟨fun x y hxy hy => ?_, fun x y hx hxy => ?_, fun x hx => ?_, fun x hx => ?_⟩
  · rw [eq x, eq y]
    by_cases c1 : x ≤ d.a
    · rw [if_pos c1]
      refine ⟨le_rfl' zero_ne_nan', ?_⟩
      by_cases c2 : y ≤ d.a
      · rw [if_pos c2]; exact le_rfl' zero_ne_nan'
      · rw [if_neg c2, if_pos hy]
        have hay := (le_total' (ne_nan_right hxy) haf.is.ne_nan).resolve_left c2
        exact (lo (le_of_lt' hay) (le_rfl' (ne_nan_right hxy))).1
    · have hax := (le_total' (ne_nan_left hxy) haf.is.ne_nan).resolve_left c1
      have c2 : ¬ y ≤ d.a := fun h => c1 (le_trans' hxy h)
      rw [if_neg c1, if_neg c2, if_pos (le_trans' hxy hy), if_pos hy]
      exact lo (le_of_lt' hax) hxy
  · have c1 : ¬ x ≤ d.a := fun h => not_lt_of_le' (le_trans' h hac) hx
    have c2 : ¬ x ≤ d.c := fun h => not_lt_of_le' h hx
    have c3 : ¬ y ≤ d.a := fun h => c1 (le_trans' hxy h)
    have c4 : ¬ y ≤ d.c := fun h => c2 (le_trans' hxy h)
    rw [eq x, eq y, if_neg c1, if_neg c2, if_neg c3, if_neg c4]
    by_cases c5 : y ≤ d.b
    · rw [if_pos (le_trans' hxy c5), if_pos c5]; exact hi hxy c5
    · rw [if_neg c5]
      refine ⟨?_, (Is.one.le_iff Is.one).2 le_rfl⟩
      by_cases c6 : x ≤ d.b
      · rw [if_pos c6]; exact (hi (le_rfl' (ne_nan_left hxy)) c6).2
      · rw [if_neg c6]; exact (Is.one.le_iff Is.one).2 le_rfl
  · rw [eq, if_pos (hda ▸ hx)]
  · have c5 : ¬ x ≤ d.b := fun h => not_lt_of_le' h hx
    have c4 : ¬ x ≤ d.c := fun h => c5 (le_trans' h hcb)
    rw [eq, if_neg (fun h => c4 (le_trans' h hac)), if_neg c4, if_neg c5]

theorem inf_mul_sin (k : F64) : (pinf * k).sin = nan ∧ (ninf * k).sin = nan := by
  have key : ∀ {j : F64}, j.isInf → (j * k).sin = nan := fun {j} hj => by
    have : j * k = nan ∨ j * k = pinf ∨ j * k = ninf := by
      change F64.mul j k = nan ∨ F64.mul j k = pinf ∨ F64.mul j k = ninf
      unfold F64.mul
      split
      · exact Or.inl rfl
      · exact Or.inl rfl
      · rw [if_pos (Or.inl hj)]
        split_ifs
        · exact Or.inl rfl
        · unfold sinf; split_ifs <;> simp
    rcases this with h | h | h <;> rw [h] <;> rfl
  exact ⟨key trivial, key trivial⟩

/-- C207 (violation): outside the support the raised cosine cdf is not clamped; at the infinities it is NaN -/
theorem C207_cosine_violated {a b : F64} {d : Cosine} (h : Cosine.new a b = .ok d) (ha : a.isFinite) (hb : b.isFinite) :
    (d.cdf ninf).val = nan ∧ (d.cdf pinf).val = nan := by
  obtain ⟨h0, rfl⟩ := Cosine.new_ok.1 h
  obtain ⟨s, rfl, hs⟩ := finite_pos h0 hb
  constructor
  · change fin (1 / 2) * (1 + (ninf - a) / fin s + ONE_OVER_PI * ((ninf - a) / fin s * PI).sin) = nan
    rw [z_bot ha hs, (inf_mul_sin _).2, mul_nan, add_nan, mul_nan]
  · change fin (1 / 2) * (1 + (pinf - a) / fin s + ONE_OVER_PI * ((pinf - a) / fin s * PI).sin) = nan
    rw [z_top ha hs, (inf_mul_sin _).1, mul_nan, add_nan, mul_nan]
end

section
open B64
attribute [local instance] binary64 binary64_lawful B64.libm B64.specialFns

theorem b64_neg_bounds {x : ℝ} (k : ℤ) (hk : -1000 ≤ k) (hk0 : k ≤ 0) (h1 : -1 ≤ x) (h2 : x ≤ -(2 ^ k)) :
    -1 ≤ B64.rnd x ∧ B64.rnd x ≤ -(2 ^ k) ∧ ¬ FP.huge (B64.rnd x) := by
  have r1 : B64.rnd (-1) = -1 := by have := rnd_repr (-1) 0 (by norm_num) (by norm_num); simpa using this
  have r2 : B64.rnd (-(2 ^ k)) = -(2 ^ k) := by
    have := rnd_repr (-1) k (by norm_num) (by omega)
    simpa using this
  have g1 := rnd_mono h1
  have g2 := rnd_mono h2
  rw [r1] at g1; rw [r2] at g2
  refine ⟨g1, g2, not_huge_small ?_⟩
  have := two_zpow_pos k
  rw [abs_le]; constructor <;> linarith

theorem sin_flpi_neg : Real.sin (-(884279719003555 / 281474976710656)) ≤ -(2 ^ (-54:ℤ)) := by
  have h1 := Real.pi_gt_d20
  have h2 := Real.pi_lt_d20
  have e : Real.sin (-(884279719003555 / 281474976710656)) = -Real.sin (Real.pi - 884279719003555 / 281474976710656) := by
    rw [Real.sin_neg, Real.sin_pi_sub]
  rw [e, neg_le_neg_iff]
  have h3 : 2 / Real.pi * (Real.pi - 884279719003555 / 281474976710656) ≤ Real.sin (Real.pi - 884279719003555 / 281474976710656) :=
    Real.mul_le_sin (by norm_num at h1 ⊢; linarith) (by norm_num at h2 ⊢; linarith)
  refine le_trans ?_ h3
  have h4 : (1:ℝ) / 2 ≤ 2 / Real.pi := by rw [div_le_div_iff₀ (by norm_num) Real.pi_pos]; linarith
  have h5 : (2:ℝ) ^ (-53:ℤ) ≤ Real.pi - 884279719003555 / 281474976710656 := by
    rw [zpow_neg]; norm_num at h1 ⊢; linarith
  calc (2:ℝ) ^ (-54:ℤ) = 1 / 2 * 2 ^ (-53:ℤ) := by rw [zpow_neg, zpow_neg]; norm_num
    _ ≤ _ := mul_le_mul h4 h5 (by positivity) (by positivity)

/-- C207 (violation): at the lower end `-s` of the support of the raised cosine distribution with `mu = 0` — for every scale — the cdf
is negative, because `sin` of the rounded `π` is not zero. -/
theorem C207_cosine_lower_end_violated {b : F64} {s : ℝ} {d : Cosine} (h : Cosine.new 0 b = .ok d) (hb : b.Rep s) :
    ∃ v, (d.cdf d.support.1).val.Is v ∧ v < 0 := by
  obtain ⟨h0, rfl⟩ := Cosine.new_ok.1 h
  obtain ⟨hb1, hb2, hb3⟩ := hb
  have hs : 0 < s := pos_of_lt h0 hb1
  have eb : b = fin s := hb1.eq_fin hs.ne'
  subst eb
  have n1 : FP.rnd (-s) = -s := by rw [FP.Lawful.rnd_neg, hb2]
  have n2 : ¬ FP.huge (-s) := fun h => hb3 ((FP.Lawful.huge_neg _).1 h)
  have e1 : (0 - fin s : F64).Is (-s) := by
    refine (sub_is Is.zero (Is.fin s) ?_).congr ?_ <;> rw [zero_sub, n1]
    exact n2
  have e2 : (0 - fin s - 0 : F64).Is (-s) := by
    refine (sub_is e1 Is.zero ?_).congr ?_ <;> rw [sub_zero, n1]
    exact n2
  have r1 : B64.rnd (-1) = -1 := by have := rnd_repr (-1) 0 (by norm_num) (by norm_num); simpa using this
  have hz : ((0 - fin s - 0) / fin s : F64).Is (-1) := by
    refine (div_is e2 (Is.fin s) hs.ne' ?_).congr ?_ <;> rw [neg_div, div_self hs.ne']
    · change ¬ FP.huge (B64.rnd _); rw [r1]; exact not_huge_small (by norm_num)
    · exact r1
  have ez := hz.eq_fin (by norm_num)
  have hp : (fin (-1) * PI).Is (-(884279719003555 / 281474976710656)) := by
    rw [PI_eq]
    have hr : B64.rnd (-1 * (884279719003555 / 281474976710656)) = -(884279719003555 / 281474976710656) := by
      rw [neg_one_mul, rnd_neg, ← rnd_pi]
      rw [show B64.rnd (B64.rnd Real.pi) = B64.rnd Real.pi from binary64_lawful.rnd_idem _]
    refine (mul_is (Is.fin _) (Is.fin _) ?_).congr hr
    change ¬ FP.huge (B64.rnd _)
    rw [hr]; exact not_huge_small (by rw [abs_neg, abs_of_pos] <;> norm_num)
  have hp' := hp.eq_fin (by norm_num)
  obtain ⟨b1, b2, b3⟩ := b64_neg_bounds (-54) (by norm_num) (by norm_num) (Real.neg_one_le_sin _) sin_flpi_neg
  have hsin : ((fin (-1) * PI).sin).Is (B64.rnd (Real.sin (-(884279719003555 / 281474976710656)))) := by
    rw [hp']
    exact round_is b3
  have hsum : (1 + fin (-1) : F64).Is 0 := (fin_ops 0 (by norm_num) (by norm_num)).congr (by norm_num)
  generalize B64.rnd (Real.sin (-(884279719003555 / 281474976710656))) = t at b1 b2 hsin
  have p54 : (2:ℝ) ^ (-54:ℤ) = 4 * 2 ^ (-56:ℤ) := by rw [zpow_neg, zpow_neg]; norm_num
  have p56 : (2:ℝ) ^ (-56:ℤ) = 2 * 2 ^ (-57:ℤ) := by rw [zpow_neg, zpow_neg]; norm_num
  have q := two_zpow_pos (-57)
  obtain ⟨c1, c2, c3⟩ := b64_neg_bounds (x := 5734161139222659 / 18014398509481984 * t) (-56) (by norm_num) (by norm_num) (by nlinarith)
    (by rw [p54] at b2; have q6 := two_zpow_pos (-56); generalize (2:ℝ) ^ (-56:ℤ) = P at b2 q6 ⊢; linarith)
  have hm : (ONE_OVER_PI * (fin (-1) * PI).sin).Is (B64.rnd (5734161139222659 / 18014398509481984 * t)) := by
    rw [one_over_pi_eq]; exact mul_is (Is.fin _) hsin c3
  generalize B64.rnd (5734161139222659 / 18014398509481984 * t) = t2 at c1 c2 hm
  obtain ⟨d1, d2, d3⟩ := b64_neg_bounds (x := 0 + t2) (-56) (by norm_num) (by norm_num) (by linarith) (by linarith)
  have hm2 := add_is hsum hm d3
  change F64.Is _ (B64.rnd (0 + t2)) at hm2
  generalize B64.rnd (0 + t2) = t3 at d1 d2 hm2
  obtain ⟨f1, f2, f3⟩ := b64_neg_bounds (x := 1 / 2 * t3) (-57) (by norm_num) (by norm_num) (by linarith) (by rw [p56] at d2; generalize (2:ℝ) ^ (-57:ℤ) = P at d2 q ⊢; linarith)
  refine ⟨B64.rnd (1 / 2 * t3), ?_, by linarith⟩
  change (fin (1 / 2) * (1 + (0 - fin s - 0) / fin s + ONE_OVER_PI * ((0 - fin s - 0) / fin s * PI).sin)).Is _
  rw [ez]
  exact mul_is (Is.fin _) hm2 f3

/-- C207 (violation): `Triangular::new(0, 1.5 + 2^-52, 2^-60)` has `cdf(c) > 1`: the rounding errors of `(c-a)*(c-a)/(b-a)/(c-a)` add
up. -/
theorem C207_triangular_rounding_violated : ∃ d v, Triangular.new (fin 0) (fin (3 / 2 + 1 / 2 ^ 52)) (fin (1 / 2 ^ 60)) = .ok d ∧
    (d.cdf d.c).val.Is v ∧ 1 < v := by
  refine ⟨⟨fin 0, fin (3 / 2 + 1 / 2 ^ 52), fin (1 / 2 ^ 60)⟩, 1 + 1 / 2 ^ 52,
    Triangular.new_ok.2 ⟨fin_lt_fin.2 (by norm_num), fin_lt_fin.2 (by norm_num), rfl⟩, ?_, by norm_num⟩
  have rw0 : B64.rnd (3 / 2 + 1 / 2 ^ 52) = 3 / 2 + 1 / 2 ^ 52 := by
    have := rnd_repr (3 * 2 ^ 51 + 1) (-52) (by norm_num) (by norm_num)
    rw [show (((3 * 2 ^ 51 + 1 : ℤ):ℝ) * 2 ^ (-52:ℤ)) = 3 / 2 + 1 / 2 ^ 52 by rw [zpow_neg]; norm_num] at this
    exact this
  have is_of : ∀ {x y : ℝ}, B64.rnd x = y → |y| ≤ 10 → y ≠ 0 → F64.round x = fin y := fun h1 h2 h3 => round_eq h1 h2 h3
  have ec : (fin 0 + fin (3 / 2 + 1 / 2 ^ 52) : F64) = fin (3 / 2 + 1 / 2 ^ 52) := by
    refine ((add_is (Is.fin 0) (Is.fin _) ?_).congr ?_).eq_fin (by norm_num) <;> rw [zero_add]
    · change ¬ FP.huge (B64.rnd _); rw [rw0]; exact not_huge_small (by rw [abs_of_pos] <;> norm_num)
    · exact rw0
  have rb : B64.rnd (3 / 2 + 1 / 2 ^ 52 + 1 / 2 ^ 60) = 3 / 2 + 1 / 2 ^ 52 := by
    have := rnd_eq (x := 3 / 2 + 1 / 2 ^ 52 + 1 / 2 ^ 60) (3 * 2 ^ 51 + 1) (-52) (by norm_num) (by norm_num) (by norm_num)
      (by rw [abs_lt, zpow_neg]; norm_num)
    rw [this, zpow_neg]; norm_num
  have eb : (fin (3 / 2 + 1 / 2 ^ 52) + fin (1 / 2 ^ 60) : F64) = fin (3 / 2 + 1 / 2 ^ 52) := by
    refine ((add_is (Is.fin _) (Is.fin _) ?_).congr ?_).eq_fin (by norm_num)
    · change ¬ FP.huge (B64.rnd _); rw [rb]; exact not_huge_small (by rw [abs_of_pos] <;> norm_num)
    · exact rb
  have es : (fin (3 / 2 + 1 / 2 ^ 52) - fin 0 : F64) = fin (3 / 2 + 1 / 2 ^ 52) := by
    refine ((sub_is (Is.fin _) (Is.fin _) ?_).congr ?_).eq_fin (by norm_num) <;> rw [sub_zero]
    · change ¬ FP.huge (B64.rnd _); rw [rw0]; exact not_huge_small (by rw [abs_of_pos] <;> norm_num)
    · exact rw0
  have e : (Triangular.cdf ⟨fin 0, fin (3 / 2 + 1 / 2 ^ 52), fin (1 / 2 ^ 60)⟩ (Triangular.c ⟨fin 0, fin (3 / 2 + 1 / 2 ^ 52), fin (1 / 2 ^ 60)⟩)).val
      = fin (3 / 2 + 1 / 2 ^ 52) * fin (3 / 2 + 1 / 2 ^ 52) / fin (3 / 2 + 1 / 2 ^ 52) / fin (3 / 2 + 1 / 2 ^ 52) := by
    unfold Triangular.cdf Triangular.b Triangular.c
    simp only
    rw [ec, if_neg (fun h => by have := fin_le_fin.1 h; norm_num at this), if_pos (fin_le_fin.2 le_rfl), eb, es]; rfl
  rw [e]
  have m1 : (fin (3 / 2 + 1 / 2 ^ 52) * fin (3 / 2 + 1 / 2 ^ 52) : F64) = fin (9 / 4 + 1 / 2 ^ 50) := by
    rw [mul_finite (Is.fin _) (Is.fin _), if_neg (by norm_num)]
    refine is_of ?_ (by rw [abs_of_pos] <;> norm_num) (by norm_num)
    have := rnd_eq (x := (3 / 2 + 1 / 2 ^ 52) * (3 / 2 + 1 / 2 ^ 52)) (9 * 2 ^ 49 + 2) (-51) (by norm_num) (by norm_num) (by norm_num)
      (by rw [abs_lt, zpow_neg]; norm_num)
    rw [this, zpow_neg]; norm_num
  have m2 : (fin (9 / 4 + 1 / 2 ^ 50) / fin (3 / 2 + 1 / 2 ^ 52) : F64) = fin (3 / 2 + 1 / 2 ^ 51) := by
    rw [div_finite (Is.fin _) (Is.fin _) (by norm_num), if_neg (by norm_num)]
    refine is_of ?_ (by rw [abs_of_pos] <;> norm_num) (by norm_num)
    have := rnd_eq (x := (9 / 4 + 1 / 2 ^ 50) / (3 / 2 + 1 / 2 ^ 52)) (3 * 2 ^ 51 + 2) (-52) (by norm_num) (by norm_num) (by norm_num)
      (by rw [abs_lt, zpow_neg]; norm_num)
    rw [this, zpow_neg]; norm_num
  have m3 : (fin (3 / 2 + 1 / 2 ^ 51) / fin (3 / 2 + 1 / 2 ^ 52) : F64) = fin (1 + 1 / 2 ^ 52) := by
    rw [div_finite (Is.fin _) (Is.fin _) (by norm_num), if_neg (by norm_num)]
    refine is_of ?_ (by rw [abs_of_pos] <;> norm_num) (by norm_num)
    have := rnd_eq (x := (3 / 2 + 1 / 2 ^ 51) / (3 / 2 + 1 / 2 ^ 52)) (2 ^ 52 + 1) (-52) (by norm_num) (by norm_num) (by norm_num)
      (by rw [abs_lt, zpow_neg]; norm_num)
    rw [this, zpow_neg]; norm_num
  rw [m1, m2, m3]; exact Is.fin _

example : ∃ d, Cosine.new 0 (fin 3) = .ok d ∧ (d.cdf pinf).val = nan ∧ ∃ v, (d.cdf d.support.1).val.Is v ∧ v < 0 := by
  have h : Cosine.new 0 (fin 3) = .ok ⟨0, fin 3⟩ := Cosine.new_ok.2 ⟨fin_lt_fin.2 (by norm_num), rfl⟩
  have r : (fin 3).Rep 3 := ⟨Is.fin 3, by
    change B64.rnd 3 = 3
    have := rnd_repr 3 0 (by norm_num) (by norm_num); simpa using this, not_huge_small (by norm_num)⟩
  exact ⟨_, h, (C207_cosine_violated h trivial trivial).2, C207_cosine_lower_end_violated h r⟩

example : ∃ d, Triangular.new (fin (1:ℤ)) (fin (2:ℤ)) (fin (3:ℤ)) = .ok d ∧
    (∀ x y : F64, x ≤ y → y ≤ d.c → 0 ≤ (d.cdf x).val ∧ (d.cdf x).val ≤ (d.cdf y).val) ∧ ∀ x : F64, d.b < x → (d.cdf x).val = 1 := by
  have h : Triangular.new (fin (1:ℤ)) (fin (2:ℤ)) (fin (3:ℤ)) = .ok ⟨fin (1:ℤ), fin (2:ℤ), fin (3:ℤ)⟩ :=
    Triangular.new_ok.2 ⟨fin_lt_fin.2 (by norm_num), fin_lt_fin.2 (by norm_num), rfl⟩
  have hc : (Triangular.c ⟨fin (1:ℤ), fin (2:ℤ), fin (3:ℤ)⟩) = fin (3:ℤ) :=
    (fin_ops 3 (by norm_num) (by norm_num)).eq_fin (by norm_num)
  have hb : (Triangular.b ⟨fin (1:ℤ), fin (2:ℤ), fin (3:ℤ)⟩) = fin (6:ℤ) := by
    change Triangular.c ⟨fin (1:ℤ), fin (2:ℤ), fin (3:ℤ)⟩ + fin (3:ℤ) = _
    rw [hc]; exact (fin_ops 6 (by norm_num) (by norm_num)).eq_fin (by norm_num)
  have sub : ∀ x y n : ℤ, |n| ≤ 2 ^ 10 → x - y = n → (fin (x:ℝ) - fin (y:ℝ)).Is (n:ℝ) := fun x y n hn e =>
by
    have er : (x:ℝ) - y = n := by rw [← e]; push_cast; ring
    have hr : B64.rnd (n:ℝ) = n := by
      have := rnd_repr n 0 (hn.trans (by norm_num)) (by norm_num); simpa using this
    have hh : ¬ FP.huge (n:ℝ) := binary64_lawful.not_huge _ (by
      have h1 : |(n:ℝ)| ≤ 2 ^ 10 := by exact_mod_cast hn
      exact h1.trans (pow_le_pow_right₀ (by norm_num) (by norm_num)))
    refine (sub_is (Is.fin _) (Is.fin _) ?_).congr ?_ <;> rw [er]
    · change ¬ FP.huge (B64.rnd _); rw [hr]; exact hh
    · exact hr
  have g := C207_triangular_partial h trivial (by rw [hc]; trivial) (by rw [hb]; trivial)
    (by rw [hc]; exact sub 3 1 2 (by norm_num) (by norm_num)) (by norm_num)
    (by rw [hc, hb]; exact sub 6 3 3 (by norm_num) (by norm_num)) (by norm_num)
    (by rw [hb]; exact sub 6 1 5 (by norm_num) (by norm_num)) (by norm_num)
    (by rw [hc]; exact fin_le_fin.2 (by norm_num)) (by rw [hc, hb]; exact fin_le_fin.2 (by norm_num))
  exact ⟨_, h, g.1, g.2.2.2⟩

/-- `Triangular::new(0, 2^600, 2^600)`: `cdf(c) = +inf` -/
example : ∃ d, Triangular.new (fin 0) (fin (2 ^ (600:ℤ))) (fin (2 ^ (600:ℤ))) = .ok d ∧ (d.cdf d.c).val = pinf := by
  have P := two_zpow_pos 600
  have h : Triangular.new (fin 0) (fin (2 ^ (600:ℤ))) (fin (2 ^ (600:ℤ))) = .ok ⟨fin 0, fin (2 ^ (600:ℤ)), fin (2 ^ (600:ℤ))⟩ :=
    Triangular.new_ok.2 ⟨fin_lt_fin.2 P, fin_lt_fin.2 P, rfl⟩
  have rep : ∀ k : ℤ, 0 ≤ k → k ≤ 1000 → B64.rnd (2 ^ k) = 2 ^ k ∧ ¬ FP.huge ((2:ℝ) ^ k) := fun k h0 h1 => by
    refine ⟨by have := rnd_repr 1 k (by norm_num) (by omega); simpa using this, ?_⟩
    change ¬ ((2:ℝ) ^ 1024 ≤ |_|)
    rw [abs_of_pos (two_zpow_pos _), not_le, ← zpow_natCast]
    exact zpow_lt_zpow_right₀ (by norm_num) (by push_cast; omega)
  have hc : (Triangular.c ⟨fin 0, fin (2 ^ (600:ℤ)), fin (2 ^ (600:ℤ))⟩) = fin (2 ^ (600:ℤ)) := by
    refine ((add_is (Is.fin 0) (Is.fin _) ?_).congr ?_).eq_fin P.ne' <;> rw [zero_add]
    · change ¬ FP.huge (B64.rnd _); rw [(rep 600 (by norm_num) (by norm_num)).1]; exact (rep 600 (by norm_num) (by norm_num)).2
    · exact (rep 600 (by norm_num) (by norm_num)).1
  have e601 : (2:ℝ) ^ (600:ℤ) + 2 ^ (600:ℤ) = 2 ^ (601:ℤ) := by
    rw [show (601:ℤ) = 600 + 1 by norm_num, zpow_add_one₀ (by norm_num)]; ring
  have hb : (Triangular.b ⟨fin 0, fin (2 ^ (600:ℤ)), fin (2 ^ (600:ℤ))⟩) = fin (2 ^ (601:ℤ)) := by
    change Triangular.c ⟨fin 0, fin (2 ^ (600:ℤ)), fin (2 ^ (600:ℤ))⟩ + fin (2 ^ (600:ℤ)) = _
    rw [hc]
    refine ((add_is (Is.fin _) (Is.fin _) ?_).congr ?_).eq_fin (two_zpow_pos _).ne' <;> rw [e601]
    · change ¬ FP.huge (B64.rnd _); rw [(rep 601 (by norm_num) (by norm_num)).1]; exact (rep 601 (by norm_num) (by norm_num)).2
    · exact (rep 601 (by norm_num) (by norm_num)).1
  have sub0 : ∀ k : ℤ, 0 ≤ k → k ≤ 1000 → (fin (2 ^ k) - fin 0).Is ((2:ℝ) ^ k) := fun k h0 h1 => by
    refine (sub_is (Is.fin _) (Is.fin 0) ?_).congr ?_ <;> rw [sub_zero]
    · change ¬ FP.huge (B64.rnd _); rw [(rep k h0 h1).1]; exact (rep k h0 h1).2
    · exact (rep k h0 h1).1
  refine ⟨_, h, C207_triangular_wide_violated h (by rw [hc]; exact sub0 600 (by norm_num) (by norm_num)) P
    (by rw [hb]; exact sub0 601 (by norm_num) (by norm_num)) (two_zpow_pos _) (by rw [hc]; exact fin_lt_fin.2 P) ?_⟩
  rw [hc]
  change (fin (2 ^ (600:ℤ)) - fin 0) * (fin (2 ^ (600:ℤ)) - fin 0) = pinf
  rw [(sub0 600 (by norm_num) (by norm_num)).eq_fin P.ne', mul_finite (Is.fin _) (Is.fin _), if_neg (by positivity)]
  have e : (2:ℝ) ^ (600:ℤ) * 2 ^ (600:ℤ) = 2 ^ (1200:ℤ) := by rw [← zpow_add₀ (by norm_num)]; norm_num
  rw [e]
  have r2 : B64.rnd (2 ^ (1200:ℤ)) = 2 ^ (1200:ℤ) := by
    have := rnd_repr 1 1200 (by norm_num) (by norm_num); simpa using this
  have hh : FP.huge (B64.rnd (2 ^ (1200:ℤ))) := by
    rw [r2]
    change (2:ℝ) ^ 1024 ≤ |_|
    rw [abs_of_pos (two_zpow_pos _)]
    exact zpow_le_zpow_right₀ (by norm_num) (show (1024:ℤ) ≤ 1200 by norm_num)
  have : F64.round (2 ^ (1200:ℤ)) = if (0:ℝ) < 2 ^ (1200:ℤ) then pinf else ninf := if_pos hh
  rw [this, if_pos (two_zpow_pos _)]
end
end Rstat
