import Verif.Props.MixtureLaws
import Verif.Props.FloatMean
import Verif.Props.Normal
import Verif.Props.FloatCdf

/-! Property C248: mixtures in rounded arithmetic. Components are abstract: the hypotheses speak only about what their own methods return. -/
set_option linter.unusedSectionVars false
namespace Rstat
open F64 Spec

section
variable [FP] [FP.Lawful]

/-- the rounded product with a probability is monotone and keeps the sign -/
theorem unit_mul_mono {w a b : F64} {u : ℝ} (hw : w.Is u) (h0 : 0 ≤ u) (ha : (0 : F64) ≤ a) (hab : a ≤ b) (hb : b.isFinite) :
    (0 : F64) ≤ w * a ∧ w * a ≤ w * b := by
  have hb0 : (0 : F64) ≤ b := le_trans' ha hab
  obtain ⟨s, hs, s0⟩ : ∃ s, b.Is s ∧ 0 ≤ s := by
    rcases nonneg_cases hb0 with rfl | h
    · exact absurd hb (by simp)
    · exact h
  obtain ⟨r, hr, r0⟩ : ∃ r, a.Is r ∧ 0 ≤ r := by
    rcases nonneg_cases ha with rfl | h
    · rw [pinf_of_pinf_le hab] at hb; exact absurd hb (by simp)
    · exact h
  have hrs : r ≤ s := (hr.le_iff hs).1 hab
  have e1 := mul_fin_ext hw hr
  have e2 := mul_fin_ext hw hs
  exact ⟨le_congr rfl e1.symm (round_nonneg (mul_nonneg h0 r0)), le_congr e1.symm e2.symm (round_mono (mul_le_mul_of_nonneg_left hrs h0))⟩

/-- rounded addition of non-negative f64s is monotone in both arguments, infinities included -/
theorem nn_add_mono {a b c d : F64} (ha : (0 : F64) ≤ a) (hc : (0 : F64) ≤ c) (hab : a ≤ b) (hcd : c ≤ d) : a + c ≤ b + d := by
  have hb := le_trans' ha hab
  have hd := le_trans' hc hcd
  have hne : ∀ {x y : F64}, (0 : F64) ≤ x → (0 : F64) ≤ y → x + y ≠ nan := fun hx hy => ne_nan_right (nn_add hx hy)
  rcases nonneg_cases hb with rfl | ⟨s, hs, -⟩
  · have : pinf + d = pinf := by
      rcases nonneg_cases hd with rfl | ⟨t, ht, -⟩
      · rfl
      · exact pinf_add ht
    rw [this]; exact le_top' (hne ha hc)
  rcases nonneg_cases hd with rfl | ⟨t, ht, -⟩
  · rw [fin_add_pinf hs]; exact le_top' (hne ha hc)
  obtain ⟨r, hr⟩ : ∃ r, a.Is r := by
    rcases nonneg_cases ha with rfl | ⟨r, hr, -⟩
    · rw [pinf_of_pinf_le hab] at hs; exact absurd hs (by simp [F64.Is])
    · exact ⟨r, hr⟩
  obtain ⟨u, hu⟩ : ∃ u, c.Is u := by
    rcases nonneg_cases hc with rfl | ⟨r, hr, -⟩
    · rw [pinf_of_pinf_le hcd] at ht; exact absurd ht (by simp [F64.Is])
    · exact ⟨r, hr⟩
  exact le_congr (add_ext hr hu).symm (add_ext hs ht).symm (round_mono (add_le_add ((hr.le_iff hs).1 hab) ((hu.le_iff ht).1 hcd)))

theorem foldl_nn_mono {A : Type} (l : List A) (f g : A → F64) (hf : ∀ a ∈ l, (0 : F64) ≤ f a) (hfg : ∀ a ∈ l, f a ≤ g a) :
    ∀ x y : F64, (0 : F64) ≤ x → x ≤ y → (0 : F64) ≤ (l.map f).foldl (· + ·) x ∧ (l.map f).foldl (· + ·) x ≤ (l.map g).foldl (· + ·) y := by
  induction l with
  | nil => intro x y h0 h; exact ⟨h0, h⟩
  | cons a l ih =>
    intro x y h0 h
    simp only [List.map_cons, List.foldl_cons]
    exact ih (fun b hb => hf b (by simp [hb])) (fun b hb => hfg b (by simp [hb])) _ _
      (nn_add h0 (hf a (by simp))) (nn_add_mono h0 (hf a (by simp)) h (hfg a (by simp)))

theorem foldl_fin_ne_nan (l : List F64) (h : ∀ a ∈ l, a.isFinite) : ∀ x : F64, x ≠ nan → l.foldl (· + ·) x ≠ nan := by
  induction l with
  | nil => intro x hx; exact hx
  | cons a l ih =>
    intro x hx
    exact ih (fun b hb => h b (by simp [hb])) _ (add_fin_ne_nan hx (h a (by simp)).is)

variable {C S P X σ : Type} [Support S] {D : Comp C S P X σ} {ws : List F64} {cs : List C} {m : Mixture C S}

theorem mixture_parts (h : Mixture.new D ws cs = .ok (.ok m)) :
    m.zipped = cs.zip ws ∧ ∀ cp ∈ cs.zip ws, cp.1 ∈ cs ∧ ∃ u, cp.2.Is u ∧ 0 ≤ u ∧ u ≤ 1 := by
  obtain ⟨-, -, hw, hc⟩ := Mixture.new_ok D ws cs m h
  obtain ⟨h1, h2, -⟩ := (C05_simplex_new_iff ws m.weights).1 hw
  refine ⟨by unfold Mixture.zipped; rw [hc, h1], fun cp hcp => ⟨(List.of_mem_zip hcp).1, ?_⟩⟩
  obtain ⟨r, hr, h⟩ := h2 _ (List.of_mem_zip hcp).2
  exact ⟨r, hr, h⟩

/-- C248: whatever the rounding, the cdf of an accepted mixture is non-decreasing and non-negative wherever the component cdfs are valid
probabilities that do not decrease. -/
theorem C248_float_mixture_cdf_partial (h : Mixture.new D ws cs = .ok (.ok m)) {x y : X}
    (hx : ∀ c ∈ cs, (D.cdf c x).isValid) (hy : ∀ c ∈ cs, (D.cdf c y).isValid) (hxy : ∀ c ∈ cs, (D.cdf c x).val ≤ (D.cdf c y).val) :
    (0 : F64) ≤ (m.cdf D x).val ∧ (m.cdf D x).val ≤ (m.cdf D y).val := by
  obtain ⟨hz, hp⟩ := mixture_parts h
  unfold Mixture.cdf
  rw [hz]
  have key : ∀ cp ∈ cs.zip ws, (0 : F64) ≤ cp.2 * (D.cdf cp.1 x).val ∧ cp.2 * (D.cdf cp.1 x).val ≤ cp.2 * (D.cdf cp.1 y).val := fun cp hcp => by
    obtain ⟨hc, u, hu, u0, -⟩ := hp cp hcp
    obtain ⟨r, hr, -⟩ := (unit_iff _).1 ⟨(hy _ hc).2, (hy _ hc).1⟩
    exact unit_mul_mono hu u0 (hx _ hc).2 (hxy _ hc) hr.isFinite
  exact foldl_nn_mono _ _ _ (fun cp hcp => (key cp hcp).1) (fun cp hcp => (key cp hcp).2) 0 0
    (le_rfl' Is.zero.ne_nan) (le_rfl' Is.zero.ne_nan)

/-- C248: whatever the rounding, the density of an accepted mixture is non-negative and never NaN where the component densities are
non-negative, provided no component of weight zero has an infinite density. -/
theorem C248_float_mixture_pdf_partial (h : Mixture.new D ws cs = .ok (.ok m)) {x : X} (hx : ∀ c ∈ cs, (0 : F64) ≤ D.pdf c x)
    (hz0 : ∀ cp ∈ cs.zip ws, cp.2.Is 0 → (D.pdf cp.1 x).isFinite) : (0 : F64) ≤ m.pdf D x := by
  obtain ⟨hz, hp⟩ := mixture_parts h
  unfold Mixture.pdf
  rw [hz]
  have key : ∀ cp ∈ cs.zip ws, (0 : F64) ≤ cp.2 * D.pdf cp.1 x := fun cp hcp => by
    obtain ⟨hc, u, hu, u0, -⟩ := hp cp hcp
    rcases u0.lt_or_eq with u1 | u1
    · rw [hu.eq_fin u1.ne']; exact mul_nn u1 (hx _ hc)
    · subst u1
      exact (unit_mul_mono hu le_rfl (hx _ hc) (le_rfl' (ne_nan_right (hx _ hc))) (hz0 cp hcp hu)).1
  exact (foldl_nn_mono _ _ _ key (fun cp hcp => le_rfl' (ne_nan_right (key cp hcp))) 0 0 (le_rfl' Is.zero.ne_nan) (le_rfl' Is.zero.ne_nan)).1

/-- C248: whatever the rounding, the mean of an accepted mixture of components with finite means is not NaN, and it is non-negative when
every component mean is. -/
theorem C248_float_mixture_mean_partial (h : Mixture.new D ws cs = .ok (.ok m)) (hrep : ∀ c ∈ cs, ∃ r, (D.mean c).Rep r) :
    m.mean D ≠ nan ∧ ((∀ c ∈ cs, (0 : F64) ≤ D.mean c) → (0 : F64) ≤ m.mean D) := by
  obtain ⟨hz, hp⟩ := mixture_parts h
  have hx : ∀ c ∈ cs, (D.mean c).isFinite := fun c hc => by obtain ⟨r, hr, -⟩ := hrep c hc; exact hr.isFinite
  unfold Mixture.mean
  rw [hz, foldl_mean]
  constructor
  · refine foldl_fin_ne_nan _ (fun a ha => ?_) 0 Is.zero.ne_nan
    obtain ⟨cp, hcp, rfl⟩ := List.mem_map.1 ha
    obtain ⟨hc, u, hu, u0, u1⟩ := hp cp hcp
    obtain ⟨r, hr, rr, hh⟩ := hrep _ hc
    have hle : |u * r| ≤ |r| := by
      rw [abs_mul, abs_of_nonneg u0]; exact mul_le_of_le_one_left (abs_nonneg _) u1
    have : |FP.rnd (u * r)| ≤ |r| := by
      rw [abs_le] at hle ⊢
      have k1 := FP.Lawful.rnd_mono hle.2
      have k2 := FP.Lawful.rnd_mono hle.1
      have ka : FP.rnd |r| = |r| := by
        rcases abs_choice r with e | e <;> rw [e]
        · exact rr
        · rw [FP.Lawful.rnd_neg, rr]
      rw [FP.Lawful.rnd_neg, ka] at k2
      rw [ka] at k1
      exact ⟨k2, k1⟩
    exact (mul_is hu hr fun hhh => hh (FP.Lawful.huge_mono _ _ this hhh)).isFinite
  · intro hn
    have key : ∀ cp ∈ cs.zip ws, (0 : F64) ≤ cp.2 * D.mean cp.1 := fun cp hcp => by
      obtain ⟨hc, u, hu, u0, -⟩ := hp cp hcp
      exact (unit_mul_mono hu u0 (hn _ hc) (le_rfl' (ne_nan_right (hn _ hc))) (hx _ hc)).1
    exact (foldl_nn_mono _ _ _ key (fun cp hcp => le_rfl' (ne_nan_right (key cp hcp))) 0 0 (le_rfl' Is.zero.ne_nan) (le_rfl' Is.zero.ne_nan)).1

/-- C248: whatever the rounding, the variance of a one-component mixture of weight one is non-negative, provided the square of the component's
mean does not overflow. -/
theorem C248_float_mixture_single_partial {c : C} (h : Mixture.new D [1] [c] = .ok (.ok m)) {r : ℝ} (hm : (D.mean c).Rep r)
    (hsq : (D.mean c * D.mean c).isFinite) (hv : (0 : F64) ≤ D.variance c) : (0 : F64) ≤ m.variance D := by
  obtain ⟨hz, -⟩ := mixture_parts h
  unfold Mixture.variance
  rw [hz]
  simp only [List.zip_cons_cons, List.zip_nil_right, List.foldl_cons, List.foldl_nil]
  obtain ⟨hr, rr, hh⟩ := hm
  have one_mul' : ∀ {a : F64} {t : ℝ}, a.Is t → Keep t → ((1 : F64) * a).Is t := fun ha k => by
    have := mul_is Is.one ha (by rw [one_mul, k.1]; exact k.2)
    rwa [one_mul, k.1] at this
  have zero_add' : ∀ {a : F64} {t : ℝ}, a.Is t → Keep t → ((0 : F64) + a).Is t := fun ha k => by
    have := add_is Is.zero ha (by rw [zero_add, k.1]; exact k.2)
    rwa [zero_add, k.1] at this
  have hmean : ((0 : F64) + 1 * D.mean c).Is r := zero_add' (one_mul' hr ⟨rr, hh⟩) ⟨rr, hh⟩
  have he := mul_fin_ext hr hr
  have hnh : ¬ FP.huge (FP.rnd (r * r)) := fun hu => by
    have : F64.round (r * r) = pinf ∨ F64.round (r * r) = ninf := by
      unfold F64.round; rw [if_pos hu]; split_ifs <;> simp
    rcases this with e | e <;> rw [e] at he <;> generalize D.mean c * D.mean c = z at he hsq <;> cases z <;> simp_all
  have hq : (D.mean c * D.mean c).Is (FP.rnd (r * r)) := mul_is hr hr hnh
  have hq2 := mul_is hmean hmean hnh
  have kq : Keep (FP.rnd (r * r)) := ⟨FP.Lawful.rnd_idem _, hnh⟩
  have hge : D.mean c * D.mean c ≤ D.mean c * D.mean c + D.variance c := le_add_self_of ⟨hq, kq⟩ hv
  have hsum0 : (0 : F64) ≤ D.mean c * D.mean c + D.variance c := le_trans' (is_sq_nn hr) hge
  rcases nonneg_cases hsum0 with e | ⟨t, ht, t0⟩
  · have e1 : (1 : F64) * pinf = pinf := const_mul_pinf one_pos
    rw [e, e1, fin_add_pinf Is.zero, show ∀ a : F64, pinf - a = pinf + -a from fun _ => rfl, pinf_add hq2.neg]
    exact le_top' Is.zero.ne_nan
  · have kt : Keep t := by
      have hvr := hv
      rcases nonneg_cases hvr with e | ⟨w, hw, w0⟩
      · rw [e, fin_add_pinf hq] at ht; exact absurd ht (by simp [F64.Is])
      · have hnh2 : ¬ FP.huge (FP.rnd (FP.rnd (r * r) + w)) := fun hu => by
          have := add_ext hq hw
          have h2 : F64.round (FP.rnd (r * r) + w) = pinf ∨ F64.round (FP.rnd (r * r) + w) = ninf := by
            unfold F64.round; rw [if_pos hu]; split_ifs <;> simp
          rcases h2 with e | e <;> rw [e] at this <;> generalize D.mean c * D.mean c + D.variance c = z at this ht <;> rcases ht with rfl | ⟨rfl, -⟩ <;> simp_all
        have := (add_is hq hw hnh2).eq ht
        rw [← this]; exact ⟨FP.Lawful.rnd_idem _, hnh2⟩
    have h3 := zero_add' (one_mul' ht kt) kt
    exact F64.sub_nonneg_of_le h3 hq2 ((hq.le_iff ht).1 hge)

theorem foldl_add_nan (l : List F64) : l.foldl (· + ·) nan = nan := by
  induction l with
  | nil => rfl
  | cons a l ih => rw [List.foldl_cons, nan_add, ih]

theorem single_ok (c : C) : ∃ m, Mixture.new D [1] [c] = .ok (.ok m) := by
  obtain ⟨t, htol, ht1, _⟩ := tol_is
  rw [C32_new_iff D _ _ rfl (by simp)]
  constructor
  · intro p hp
    rw [List.mem_singleton.1 hp]
    exact ⟨_, Is.one, by norm_num, by norm_num⟩
  · have h1 : ((0 : F64) + 1).Is 1 := by
      have := add_is Is.zero Is.one (not_huge_of_le 1 (by norm_num) (by norm_num))
      rwa [zero_add, F64.rnd_one] at this
    have h2 : (F64.sum [1] - 1).Is 0 := by
      have := sub_is h1 Is.one (not_huge_of_le 1 (by norm_num) (by norm_num))
      rwa [sub_self, F64.rnd_zero] at this
    refine (h2.abs.lt_iff htol).2 ?_
    rw [abs_zero]; exact lt_of_lt_of_le (by norm_num) ht1

/-- C248 (violation): a component of weight zero whose density at `x` is infinite makes the mixture density NaN at `x`. -/
theorem C248_zero_weight_violated (h : Mixture.new D ws cs = .ok (.ok m)) {x : X} {cp : C × F64} (hcp : cp ∈ cs.zip ws) (h0 : cp.2.Is 0)
    (hinf : D.pdf cp.1 x = pinf) : m.pdf D x = nan := by
  obtain ⟨hz, -⟩ := mixture_parts h
  unfold Mixture.pdf
  rw [hz]
  have e : cp.2 * D.pdf cp.1 x = nan := by
    rw [hinf]
    rcases h0 with h0 | ⟨h0, -⟩ <;> rw [h0]
    · show F64.mul _ _ = _; simp [F64.mul, F64.isInf, F64.isFinite, F64.toReal]
    · show F64.mul _ _ = _; simp [F64.mul, F64.isInf, F64.isFinite, F64.toReal]
  obtain ⟨l1, l2, hl⟩ := List.append_of_mem hcp
  rw [hl]
  unfold F64.sum
  rw [List.map_append, List.map_cons, List.foldl_append, List.foldl_cons, e, add_nan, foldl_add_nan]

/-- C248 (violation): `Mixture::new([1, 2^-18], [Normal(1024, 1), Normal(1024, 1)])` is accepted, its mean exceeds both component means and
its variance is negative (the standard deviation is NaN), in every correctly rounded arithmetic, binary64 included. -/
theorem C248_negative_variance_violated {D : Comp UvNormal S P X σ} (hm : D.mean = UvNormal.mean) (hv : D.variance = UvNormal.variance) :
    ∃ n m, UvNormal.new (fin 1024) 1 = .ok n ∧ Mixture.new D [1, fin (1 / 2 ^ 18)] [n, n] = .ok (.ok m) ∧
      UvNormal.mean n < m.mean D ∧ m.variance D < 0 ∧ (m.variance D).sqrt = nan := by
  have A : ∀ {a b : F64} {r s t : ℝ}, a.Is r → b.Is s → r + s = t → Keep t → (a + b).Is t := fun ha hb e k => by
    have := add_is ha hb (by rw [e, k.1]; exact k.2); rwa [e, k.1] at this
  have M : ∀ {a b : F64} {r s t : ℝ}, a.Is r → b.Is s → r * s = t → Keep t → (a * b).Is t := fun ha hb e k => by
    have := mul_is ha hb (by rw [e, k.1]; exact k.2); rwa [e, k.1] at this
  have K : ∀ {t : ℝ} (a : ℤ) (e : ℕ), t = (a:ℝ) / 2 ^ e → |a| ≤ 2 ^ 53 → e ≤ 1000 → Keep t := fun a e h1 h2 h3 => keep_eq a e h1 h2 h3
  let n : UvNormal := ⟨fin 1024, 1⟩
  have hn : UvNormal.new (fin 1024) 1 = .ok n := UvNormal.new_ok.2 ⟨lt_of_pos one_pos Is.one, rfl⟩
  have hex : ∃ m, Mixture.new D [1, fin (1 / 2 ^ 18)] [n, n] = .ok (.ok m) := by
    obtain ⟨t, htol, ht1, _⟩ := tol_is
    rw [C32_new_iff D _ _ rfl (by simp)]
    constructor
    · intro p hp
      simp only [List.mem_cons, List.not_mem_nil, or_false] at hp
      rcases hp with rfl | rfl
      · exact ⟨_, Is.one, by norm_num, by norm_num⟩
      · exact ⟨_, Is.fin _, by norm_num, by norm_num⟩
    · have h1 : ((0 : F64) + 1).Is 1 := A Is.zero Is.one (by norm_num) (K 1 0 (by norm_num) (by norm_num) (by norm_num))
      have h2 : ((0 : F64) + 1 + fin (1 / 2 ^ 18)).Is (1 + 1 / 2 ^ 18) := A h1 (Is.fin _) rfl (K (2 ^ 18 + 1) 18 (by norm_num) (by norm_num) (by norm_num))
      have h3 : (F64.sum [1, fin (1 / 2 ^ 18)] - 1).Is (1 / 2 ^ 18) := A h2 Is.one.neg (by norm_num) (K 1 18 (by norm_num) (by norm_num) (by norm_num))
      refine (h3.abs.lt_iff htol).2 ?_
      rw [abs_of_nonneg (by positivity)]; refine lt_of_lt_of_le ?_ ht1; norm_num
  obtain ⟨m, h⟩ := hex
  obtain ⟨hz, -⟩ := mixture_parts h
  have w1 : ((1 : F64) * D.mean n).Is 1024 := by
    rw [hm]; exact M Is.one (Is.fin 1024) (by norm_num) (K 1024 0 (by norm_num) (by norm_num) (by norm_num))
  have w2 : (fin (1 / 2 ^ 18) * D.mean n).Is (1 / 2 ^ 8) := by
    rw [hm]; exact M (Is.fin _) (Is.fin 1024) (by norm_num) (K 1 8 (by norm_num) (by norm_num) (by norm_num))
  have s1 : ((0 : F64) + 1 * D.mean n).Is 1024 := A Is.zero w1 (by norm_num) (K 1024 0 (by norm_num) (by norm_num) (by norm_num))
  have s2 : ((0 : F64) + 1 * D.mean n + fin (1 / 2 ^ 18) * D.mean n).Is (1024 + 1 / 2 ^ 8) :=
    A s1 w2 rfl (K (2 ^ 18 + 1) 8 (by norm_num) (by norm_num) (by norm_num))
  have q : (D.mean n * D.mean n + D.variance n).Is (2 ^ 20 + 1) := by
    rw [hm, hv]
    exact A (M (Is.fin 1024) (Is.fin 1024) (by norm_num : (1024:ℝ) * 1024 = 2 ^ 20) (K (2 ^ 20) 0 (by norm_num) (by norm_num) (by norm_num))) Is.one rfl
      (K (2 ^ 20 + 1) 0 (by norm_num) (by norm_num) (by norm_num))
  have q1 : ((0 : F64) + 1 * (D.mean n * D.mean n + D.variance n)).Is (2 ^ 20 + 1) :=
    A Is.zero (M Is.one q (one_mul _) (K (2 ^ 20 + 1) 0 (by norm_num) (by norm_num) (by norm_num))) (zero_add _)
      (K (2 ^ 20 + 1) 0 (by norm_num) (by norm_num) (by norm_num))
  have q2 : (fin (1 / 2 ^ 18) * (D.mean n * D.mean n + D.variance n)).Is ((2 ^ 20 + 1) / 2 ^ 18) :=
    M (Is.fin _) q (by norm_num) (K (2 ^ 20 + 1) 18 (by norm_num) (by norm_num) (by norm_num))
  have q3 : ((0 : F64) + 1 * (D.mean n * D.mean n + D.variance n) + fin (1 / 2 ^ 18) * (D.mean n * D.mean n + D.variance n)).Is
      ((2 ^ 20 + 1) * (2 ^ 18 + 1) / 2 ^ 18) := A q1 q2 (by norm_num) (K ((2 ^ 20 + 1) * (2 ^ 18 + 1)) 18 (by norm_num) (by norm_num) (by norm_num))
  have p2 := M s2 s2 (by norm_num : ((1024:ℝ) + 1 / 2 ^ 8) * (1024 + 1 / 2 ^ 8) = (2 ^ 18 + 1) ^ 2 / 2 ^ 16)
    (K ((2 ^ 18 + 1) ^ 2) 16 (by norm_num) (by norm_num) (by norm_num))
  have var : (m.variance D).Is ((2 ^ 20 + 1) * (2 ^ 18 + 1) / 2 ^ 18 - (2 ^ 18 + 1) ^ 2 / 2 ^ 16) := by
    unfold Mixture.variance
    rw [hz]
    exact A q3 p2.neg (sub_eq_add_neg _ _).symm (K ((2 ^ 20 + 1) * (2 ^ 18 + 1) - 4 * (2 ^ 18 + 1) ^ 2) 18 (by norm_num) (by norm_num) (by norm_num))
  have neg : m.variance D < 0 := (var.lt_iff Is.zero).2 (by norm_num)
  refine ⟨n, m, hn, h, ?_, neg, sqrt_neg_nan var (by norm_num)⟩
  have : (m.mean D).Is (1024 + 1 / 2 ^ 8) := by unfold Mixture.mean; rw [hz]; exact s2
  exact ((Is.fin 1024).lt_iff this).2 (by norm_num)

end

section
variable [FP] [FP.Exact] {S P X σ : Type} [Support S] {D : Comp UvNormal S P X σ} {ws : List F64} {n : UvNormal} {m : Mixture UvNormal S}

/-- C248 (violation): with exact arithmetic, the variance of an accepted mixture of identical normals `Normal(μ, v)` is `s v + s (1 - s) μ²`
where `s` is the sum of the weights; whenever the accepted weights exceed one (they may, by up to 1e-5), it is negative for every mean large enough. -/
theorem C248_tolerance_violated (hm : D.mean = UvNormal.mean) (hv : D.variance = UvNormal.variance) {a b : F64} {μ v : ℝ} (ha : a.Is μ) (hb : b.Is v)
    (hn : UvNormal.new a b = .ok n) (h : Mixture.new D ws (List.replicate ws.length n) = .ok (.ok m)) :
    let s := (ws.map F64.toReal).sum
    (m.variance D).Is (s * v + s * (1 - s) * μ ^ 2) ∧ (1 < s → v < (s - 1) * μ ^ 2 → m.variance D < 0) := by
  intro s
  obtain ⟨hz, hp⟩ := mixture_parts h
  obtain ⟨-, rfl⟩ := UvNormal.new_ok.1 hn
  have key : ∀ f : ℝ, (((List.replicate ws.length (⟨a, b⟩ : UvNormal)).zip ws).map fun cp => cp.2.toReal * f).sum = s * f := fun f => by
    rw [List.sum_map_mul_right, show (fun cp : UvNormal × F64 => cp.2.toReal) = toReal ∘ Prod.snd from rfl, ← List.map_map,
      List.map_snd_zip (by simp)]
  have hc : ∀ cp ∈ (List.replicate ws.length (⟨a, b⟩ : UvNormal)).zip ws, cp.1 = ⟨a, b⟩ := fun cp hcp => List.eq_of_mem_replicate (hp cp hcp).1
  have hw : ∀ cp ∈ (List.replicate ws.length (⟨a, b⟩ : UvNormal)).zip ws, cp.2.Is cp.2.toReal := fun cp hcp => by
    obtain ⟨-, u, hu, -⟩ := hp cp hcp; exact is_toReal ⟨u, hu⟩
  obtain ⟨e1, e2⟩ := foldl_pair_is ((List.replicate ws.length (⟨a, b⟩ : UvNormal)).zip ws) (fun cp => cp.2 * D.mean cp.1)
    (fun cp => cp.2 * (D.mean cp.1 * D.mean cp.1 + D.variance cp.1)) (fun cp => cp.2.toReal * μ) (fun cp => cp.2.toReal * (μ * μ + v))
    (fun cp hcp => by rw [hc cp hcp, hm]; exact (hw cp hcp).mul ha)
    (fun cp hcp => by rw [hc cp hcp, hm, hv]; exact (hw cp hcp).mul ((ha.mul ha).add hb)) 0 0 0 0 Is.zero Is.zero
  rw [zero_add, key] at e1 e2
  have var : (m.variance D).Is (s * v + s * (1 - s) * μ ^ 2) := by
    unfold Mixture.variance; rw [hz]
    exact (e2.sub (e1.mul e1)).congr (by ring)
  refine ⟨var, fun h1 h2 => (var.lt_iff Is.zero).2 ?_⟩
  have : s * v < s * ((s - 1) * μ ^ 2) := mul_lt_mul_of_pos_left h2 (by linarith)
  nlinarith

end

section
open B64
attribute [local instance] binary64 binary64_lawful
variable {S P X σ : Type} [Support S] {D : Comp UvNormal S P X σ} {n : UvNormal} {m : Mixture UvNormal S}

/-- C248 (violation): in double precision a mixture whose only component is `Normal(2^27, 1)` has variance zero, and one whose only component is a
normal of mean at least 2^512 in absolute value has variance NaN. -/
theorem C248_cancellation_violated (hm : D.mean = UvNormal.mean) (hv : D.variance = UvNormal.variance) :
    (∃ n m, UvNormal.new (fin (2 ^ 27)) 1 = .ok n ∧ Mixture.new D [1] [n] = .ok (.ok m) ∧ (m.variance D).Is 0) ∧
    (∀ μ v : ℝ, (fin μ).Rep μ → 2 ^ 512 ≤ |μ| → ∀ n, UvNormal.new (fin μ) (fin v) = .ok n → ∃ m, Mixture.new D [1] [n] = .ok (.ok m) ∧ m.variance D = nan) := by
  have hex := fun n : UvNormal => single_ok (D := D) n
  refine ⟨?_, fun μ v hrep hμ n hn => ?_⟩
  · have hn : UvNormal.new (fin (2 ^ 27)) 1 = .ok ⟨fin (2 ^ 27), 1⟩ := UvNormal.new_ok.2 ⟨lt_of_pos one_pos Is.one, rfl⟩
    obtain ⟨m, h⟩ := hex ⟨fin (2 ^ 27), 1⟩
    refine ⟨_, m, hn, h, ?_⟩
    obtain ⟨hz, -⟩ := mixture_parts h
    unfold Mixture.variance
    rw [hz]
    simp only [List.zip_cons_cons, List.zip_nil_right, List.foldl_cons, List.foldl_nil]
    rw [hm, hv]
    show (0 + 1 * (fin (2 ^ 27) * fin (2 ^ 27) + 1) - (0 + 1 * fin (2 ^ 27)) * (0 + 1 * fin (2 ^ 27)) : F64).Is 0
    have k27 : rnd ((2:ℝ) ^ 27) = 2 ^ 27 := (rnd_eq (2 ^ 52) (-25) (by norm_num) (by norm_num) (by norm_num) (by norm_num)).trans (by norm_num)
    have k54 : rnd ((2:ℝ) ^ 54) = 2 ^ 54 := (rnd_eq (2 ^ 52) 2 (by norm_num) (by norm_num) (by norm_num) (by norm_num)).trans (by norm_num)
    have t54 : rnd ((2:ℝ) ^ 54 + 1) = 2 ^ 54 := (rnd_eq (2 ^ 52) 2 (by norm_num) (by norm_num) (by norm_num) (by norm_num [abs_lt])).trans (by norm_num)
    have o : (1 : F64) = fin 1 := rfl
    have z : (0 : F64) = fin 0 := rfl
    have e1 : fin (2 ^ 27) * fin (2 ^ 27) = fin (2 ^ 54) := mul_val (by rw [← pow_add]; exact k54) (lt1024 (by norm_num)) (by norm_num)
    have e2 : fin (2 ^ 54) + fin 1 = fin (2 ^ 54) := add_val t54 (lt1024 (by norm_num)) (by norm_num)
    have e3 : fin 1 * fin (2 ^ 54) = fin (2 ^ 54) := mul_val (by rw [one_mul]; exact k54) (lt1024 (by norm_num)) (by norm_num)
    have e4 : fin 1 * fin (2 ^ 27) = fin (2 ^ 27) := mul_val (by rw [one_mul]; exact k27) (lt1024 (by norm_num)) (by norm_num)
    have e5 : fin 0 + fin (2 ^ 54) = fin (2 ^ 54) := add_val (by rw [zero_add]; exact k54) (lt1024 (by norm_num)) (by norm_num)
    have e6 : fin 0 + fin (2 ^ 27) = fin (2 ^ 27) := add_val (by rw [zero_add]; exact k27) (lt1024 (by norm_num)) (by norm_num)
    rw [o, z, e1, e2, e3, e4, e5, e6, e1]
    have := sub_is (Is.fin (2 ^ 54)) (Is.fin (2 ^ 54)) (not_huge_of_le 1 (by norm_num) (by norm_num))
    rwa [sub_self, F64.rnd_zero] at this
  · obtain ⟨hv0, rfl⟩ := UvNormal.new_ok.1 hn
    obtain ⟨m, h⟩ := hex ⟨fin μ, fin v⟩
    refine ⟨m, h, ?_⟩
    obtain ⟨hz, -⟩ := mixture_parts h
    unfold Mixture.variance
    rw [hz]
    simp only [List.zip_cons_cons, List.zip_nil_right, List.foldl_cons, List.foldl_nil]
    rw [hm, hv]
    show (0 + 1 * (fin μ * fin μ + fin v)) - (0 + 1 * fin μ) * (0 + 1 * fin μ) = nan
    have v0 : (0 : F64) ≤ fin v := le_of_lt' hv0
    have p0 : (0 : F64) ≤ 1 := nn_is Is.one zero_le_one
    have h512 : (2:ℝ) ^ 1024 = 2 ^ 512 * 2 ^ 512 := by rw [← pow_add]
    have sq : fin μ * fin μ = pinf := by
      have e := mul_fin_ext (Is.fin μ) (Is.fin μ)
      rw [round_pinf (by rw [h512, ← abs_mul_abs_self μ]; exact mul_le_mul hμ hμ (by positivity) (abs_nonneg _))] at e
      generalize fin μ * fin μ = z at e
      cases z <;> simp_all
    have e1 : (0 : F64) + 1 * (fin μ * fin μ + fin v) = pinf := by
      rw [sq, pinf_add (Is.fin v), show (1 : F64) * pinf = pinf from const_mul_pinf one_pos, fin_add_pinf Is.zero]
    obtain ⟨-, rr, hh⟩ := hrep
    have μ0 : μ ≠ 0 := by rintro rfl; rw [abs_zero] at hμ; exact absurd hμ (not_le.2 (by positivity))
    have e2 : (1 : F64) * fin μ = fin μ := by
      have := mul_is Is.one (Is.fin μ) (by rw [one_mul, rr]; exact hh)
      rw [one_mul, rr] at this; exact this.eq_fin μ0
    have e3 : (0 : F64) + fin μ = fin μ := by
      have := add_is Is.zero (Is.fin μ) (by rw [zero_add, rr]; exact hh)
      rw [zero_add, rr] at this; exact this.eq_fin μ0
    rw [e1, e2, e3, sq]
    rfl

end

section
open B64
attribute [local instance] binary64 binary64_lawful B64.libm

/-- the logistic distribution as a component (any sampler) -/
noncomputable def logisticComp : Comp Logistic Interval Logistic F64 ℕ :=
  ⟨fun _ => ⟨⊥, ⊤⟩, id, id, fun d x => d.cdf x, fun d x => d.pdf x, Logistic.mean, Logistic.variance, fun d s => (d.mean, s + 1)⟩
/-- the normal distribution as a component (any sampler) -/
noncomputable def normalComp : Comp UvNormal Interval UvNormal F64 ℕ :=
  ⟨fun _ => ⟨⊥, ⊤⟩, id, id, fun _ _ => ⟨0⟩, fun d x => d.pdf x, UvNormal.mean, UvNormal.variance, fun d s => (UvNormal.mean d, s + 1)⟩

theorem half_weights_ok {C : Type} {D : Comp C Interval C F64 ℕ} (c e : C) : ∃ m, Mixture.new D [fin (1 / 2), fin (1 / 2)] [c, e] = .ok (.ok m) := by
  obtain ⟨t, htol, ht1, _⟩ := tol_is
  rw [C32_new_iff D _ _ rfl (by simp)]
  constructor
  · intro p hp
    have : p = fin (1 / 2) := by simpa using hp
    exact ⟨1 / 2, this ▸ Is.fin _, by norm_num, by norm_num⟩
  · have h1 : ((0 : F64) + fin (1 / 2)).Is (1 / 2) := by
      have := add_is Is.zero (Is.fin (1 / 2)) (not_huge_of_le 1 (by norm_num) (by norm_num))
      rw [zero_add] at this
      exact this.congr (keep_eq 1 1 (by norm_num) (by norm_num) (by norm_num) : Keep (1 / 2 : ℝ)).1
    have h2 : (F64.sum [fin (1 / 2), fin (1 / 2)]).Is 1 := by
      have := add_is h1 (Is.fin (1 / 2)) (not_huge_of_le 1 (by norm_num) (by norm_num))
      rw [show (1 / 2 + 1 / 2 : ℝ) = 1 by norm_num, F64.rnd_one] at this
      exact this
    have h3 : (F64.sum [fin (1 / 2), fin (1 / 2)] - 1).Is 0 := by
      have := sub_is h2 Is.one (not_huge_of_le 1 (by norm_num) (by norm_num))
      rwa [sub_self, F64.rnd_zero] at this
    refine (h3.abs.lt_iff htol).2 ?_
    rw [abs_zero]; exact lt_of_lt_of_le (by norm_num) ht1

/-- C248 (non-vacuity): the cdf of ½ Logistic(0, 1) + ½ Logistic(3, 2) is non-decreasing over all doubles, and its mean is a non-negative number -/
example : ∃ d e m, Logistic.new (fin 0) (fin 1) = .ok d ∧ Logistic.new (fin 3) (fin 2) = .ok e ∧
    Mixture.new logisticComp [fin (1 / 2), fin (1 / 2)] [d, e] = .ok (.ok m) ∧
    (∀ x y : F64, x ≤ y → (m.cdf logisticComp x).val ≤ (m.cdf logisticComp y).val) ∧ (0 : F64) ≤ m.mean logisticComp := by
  have h1 : Logistic.new (fin 0) (fin 1) = .ok ⟨fin 0, fin 1⟩ := Logistic.new_ok.2 ⟨lt_of_pos one_pos (Is.fin _), rfl⟩
  have h2 : Logistic.new (fin 3) (fin 2) = .ok ⟨fin 3, fin 2⟩ := Logistic.new_ok.2 ⟨lt_of_pos two_pos (Is.fin _), rfl⟩
  have c1 := C202_logistic h1 (by simp) (by simp)
  have c2 := C202_logistic h2 (by simp) (by simp)
  obtain ⟨m, hm⟩ := half_weights_ok (D := logisticComp) ⟨fin 0, fin 1⟩ ⟨fin 3, fin 2⟩
  have k3 : Keep (3 : ℝ) := keep_eq 3 0 (by norm_num) (by norm_num) (by norm_num)
  have k0 : Keep (0 : ℝ) := keep_eq 0 0 (by norm_num) (by norm_num) (by norm_num)
  refine ⟨_, _, m, h1, h2, hm, fun x y hxy => ?_, ?_⟩
  · have hx := bot_le' (ne_nan_left hxy)
    have hy := le_top' (ne_nan_right hxy)
    have hx' := le_top' (ne_nan_left hxy)
    have hy' := bot_le' (ne_nan_right hxy)
    refine (C248_float_mixture_cdf_partial hm ?_ ?_ ?_).2
    · intro c hc
      simp only [List.mem_cons, List.not_mem_nil, or_false] at hc
      rcases hc with rfl | rfl
      · exact (c1.valid x hx hx').symm
      · exact (c2.valid x hx hx').symm
    · intro c hc
      simp only [List.mem_cons, List.not_mem_nil, or_false] at hc
      rcases hc with rfl | rfl
      · exact (c1.valid y hy' hy).symm
      · exact (c2.valid y hy' hy).symm
    · intro c hc
      simp only [List.mem_cons, List.not_mem_nil, or_false] at hc
      rcases hc with rfl | rfl
      · exact c1.mono x y hx hxy hy
      · exact c2.mono x y hx hxy hy
  · refine (C248_float_mixture_mean_partial hm ?_).2 ?_
    · intro c hc
      simp only [List.mem_cons, List.not_mem_nil, or_false] at hc
      rcases hc with rfl | rfl
      · exact ⟨0, Is.fin 0, k0⟩
      · exact ⟨3, Is.fin 3, k3⟩
    · intro c hc
      simp only [List.mem_cons, List.not_mem_nil, or_false] at hc
      rcases hc with rfl | rfl
      · exact nn_fin le_rfl
      · exact nn_fin (by norm_num)

/-- C248 (non-vacuity): the variance of the one-component mixture of Normal(3, 2) is non-negative -/
example : ∃ n m, UvNormal.new (fin 3) (fin 2) = .ok n ∧ Mixture.new normalComp [1] [n] = .ok (.ok m) ∧ (0 : F64) ≤ m.variance normalComp := by
  have h1 : UvNormal.new (fin 3) (fin 2) = .ok ⟨fin 3, fin 2⟩ := UvNormal.new_ok.2 ⟨lt_of_pos two_pos (Is.fin _), rfl⟩
  obtain ⟨m, hm⟩ := single_ok (D := normalComp) (⟨fin 3, fin 2⟩ : UvNormal)
  have k3 : Keep (3 : ℝ) := keep_eq 3 0 (by norm_num) (by norm_num) (by norm_num)
  refine ⟨_, m, h1, hm, C248_float_mixture_single_partial hm (r := 3) ⟨Is.fin 3, k3⟩ ?_ (nn_fin (by norm_num))⟩
  exact (mul_is (Is.fin 3) (Is.fin 3) (not_huge_of_le 9 (by norm_num) (by norm_num [abs_le]))).isFinite

end
end Rstat
