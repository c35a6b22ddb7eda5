import Verif.Spec.FloatSample
import Verif.Props.Samplers
import Verif.Props.FloatMean
import Verif.Props.Dist.Frechet
import Verif.Props.Dist.InvNormal
import Verif.Props.Dist.LogNormal
import Verif.Props.Normal
import Verif.Lemmas.FloatErr

/-! C252: the crate's own samplers in rounded arithmetic. Whatever the random source answers within the interval it was asked for, the
sample should be a number in the support of the distribution. -/
set_option linter.unusedSectionVars false
namespace Rstat
open F64 Spec Consts

section
variable [FP] [FP.Lawful] [FP.Libm]

theorem powf_nn_of {a b : F64} (ha : (0 : F64) ≤ a) (hb : (0 : F64) ≤ b) : (0 : F64) ≤ a.powf b := by
  rcases nonneg_cases hb with rfl | ⟨s, hs, s0⟩
  · rcases nonneg_cases ha with rfl | ⟨r, hr, r0⟩
    · simp [F64.powf]; exact le_pinf Is.zero
    · rcases hr with rfl | ⟨rfl, _⟩
      · simp only [F64.powf]; simp
        split
        · exact nn_fin zero_le_one
        · split
          · exact nn_fin le_rfl
          · split
            · exact nn_fin zero_le_one
            · exact le_pinf Is.zero
      · simp [F64.powf]; exact nn_fin le_rfl
  · rcases s0.eq_or_lt with h | h
    · subst h
      have : a.powf b = fin 1 := by
        unfold F64.powf
        rw [if_pos (by rcases hs with rfl | ⟨rfl, _⟩ <;> simp)]
      rw [this]; exact nn_fin zero_le_one
    · exact (powf_mono hs h ha (le_rfl' (ne_nan_of_nn ha))).1
theorem powf_le1_of {a b : F64} (ha : (0 : F64) ≤ a) (ha1 : a ≤ 1) (hb : (0 : F64) ≤ b) : a.powf b ≤ 1 := by
  rcases nonneg_cases hb with rfl | ⟨s, hs, s0⟩
  · obtain ⟨r, hr, r0, r1⟩ := prob_cases ha ha1
    rcases hr with rfl | ⟨rfl, _⟩
    · rcases r1.eq_or_lt with rfl | r1
      · simp [F64.powf]; exact le_rfl' (by simp)
      · simp [F64.powf, r1.ne, abs_of_nonneg r0, r1]; exact (Is.fin 0).le_iff Is.one |>.2 zero_le_one
    · simp [F64.powf]; exact (Is.fin 0).le_iff Is.one |>.2 zero_le_one
  · rcases s0.eq_or_lt with h | h
    · subst h
      have : a.powf b = fin 1 := by
        unfold F64.powf
        rw [if_pos (by rcases hs with rfl | ⟨rfl, _⟩ <;> simp)]
      rw [this]; exact le_rfl' (by simp)
    · exact powf_le_one hs h ha ha1

theorem one_is_add : ((0 : F64) + 1).Is 1 := by
  have h1 : FP.rnd ((0:ℝ) + 1) = 1 := by rw [zero_add, rnd_one]
  have := add_ext Is.zero Is.one
  refine Is.of_ext (a := F64.round ((0:ℝ)+1)) ?_ this.symm
  rw [zero_add]; exact round_one_is
theorem le_of_is {a b c : F64} {r : ℝ} (ha : a.Is r) (hb : b.Is r) (h : c ≤ a) : c ≤ b := by
  refine le_congr rfl ?_ h
  rw [ha.ext_eq, hb.ext_eq]
/-- the standard uniform draw is in `[0, 1]` -/
theorem std_range {σ : Type} {g : RandSrc σ} (hg : InRange g) (s : σ) :
    ∃ u s', stdUniform g s = (.ok u, s') ∧ (0 : F64) ≤ u ∧ u ≤ 1 ∧ u = (g.draw (.uniformIncl 0 (0 + 1)) s).1 := by
  have h0 : (0 : F64) ≤ 0 + 1 := (Is.zero.le_iff one_is_add).2 zero_le_one
  have h := (hg 0 (0 + 1) s).1 h0
  refine ⟨_, (g.draw (.uniformIncl 0 (0 + 1)) s).2, ?_, h.1, le_of_is one_is_add Is.one h.2, rfl⟩
  unfold stdUniform UniformF.sample RandSrc.sample
  exact if_pos h0
theorem inv_nn {a : F64} (h : (0 : F64) < a) : (0 : F64) ≤ 1 / a := by
  rcases pos_cases h with rfl | ⟨r, rfl, hr⟩
  · exact nn_is (const_div_pinf Is.one) le_rfl
  · exact nn_div hr (nn_is Is.one zero_le_one)
theorem one_sub_unit {x : F64} (h0 : (0 : F64) ≤ x) (h1 : x ≤ 1) : (0 : F64) ≤ 1 - x ∧ 1 - x ≤ 1 := by
  obtain ⟨r, hr, r0, r1⟩ := prob_cases h0 h1
  exact ⟨sub_nonneg_of_le Is.one hr r1, sub_le_self_of ⟨Is.one, keep 1 0⟩ h0⟩

/-- C252 (Kumaraswamy): for every accepted pair of parameters, infinities included, every sample is a number in `[0, 1]`. -/
theorem C252_kumaraswamy {σ : Type} {g : RandSrc σ} (hg : InRange g) (s : σ) {a b : F64} {d : Kumaraswamy}
    (h : Kumaraswamy.new a b = .ok d) : InSupport d.support (d.sample g s).1 := by
  obtain ⟨h0, h1, rfl⟩ := Kumaraswamy.new_ok.1 h
  obtain ⟨u, s', e, u0, u1, -⟩ := std_range hg s
  obtain ⟨c0, c1⟩ := one_sub_unit u0 u1
  obtain ⟨d0, d1⟩ := one_sub_unit (powf_nn_of c0 (inv_nn h1)) (powf_le1_of c0 c1 (inv_nn h1))
  obtain ⟨y, hy, y0, y1⟩ := prob_cases (powf_nn_of d0 (inv_nn h0)) (powf_le1_of d0 d1 (inv_nn h0))
  refine ⟨_, y, ?_, hy, ?_⟩
  · unfold Kumaraswamy.sample
    rw [e]
    dsimp only [Kumaraswamy.sampleFrom]
  · exact ⟨(Is.zero.le_iff (Is.fin y)).2 y0, ((Is.fin y).le_iff Is.one).2 y1⟩

/-- C252 (uniform): every sample of a uniform distribution whose upper end is finite is a number between its ends. -/
theorem C252_uniform {σ : Type} {g : RandSrc σ} (hg : InRange g) (s : σ) {a b : F64} {r : ℝ} {d : UniformF}
    (h : UniformF.new a b = .ok d) (ha : a.Rep r) (hs : (a + b).isFinite) : InSupport d.space (d.sample g s).1 := by
  obtain ⟨h0, rfl⟩ := UniformF.new_ok.1 h
  have hle : a ≤ a + b := le_add_self_of ha (le_of_lt' h0)
  obtain ⟨h1, h2⟩ := (hg a (a + b) s).1 hle
  have hu : ∃ t, (a + b).Is t := by
    cases hh : a + b with
    | fin t => exact ⟨t, Is.fin t⟩
    | negZero => exact ⟨0, Is.negZero⟩
    | _ => rw [hh] at hs; simp at hs
  obtain ⟨t, ht⟩ := hu
  have hx : ∃ y, (g.draw (.uniformIncl a (a + b)) s).1.Is y := by
    cases hh : (g.draw (.uniformIncl a (a + b)) s).1 with
    | fin t => exact ⟨t, Is.fin t⟩
    | negZero => exact ⟨0, Is.negZero⟩
    | nan => rw [hh] at h1; exact absurd rfl (ne_nan_right h1)
    | pinf => rw [hh] at h2; exact absurd h2 (not_pinf_le ht)
    | ninf =>
      rw [hh] at h1
      rcases (le_cases.1 h1).2.2 with e | e | ⟨_, _, _, e, _⟩
      · rw [e] at ha; rcases ha.1 with h | ⟨h, _⟩ <;> cases h
      · cases e
      · rcases e with h | ⟨h, _⟩ <;> cases h
  obtain ⟨y, hy⟩ := hx
  refine ⟨_, y, ?_, hy, ?_⟩
  · unfold UniformF.sample RandSrc.sample
    exact congrArg Prod.fst (if_pos hle)
  · exact ⟨le_of_is hy (Is.fin y) h1, le_congr (by rw [hy.ext_eq, (Is.fin y).ext_eq]) rfl h2⟩

theorem ln_one_is : (F64.ln 1).Is 0 := by
  unfold F64.ln F64.logWith
  rw [show (1 : F64) = fin 1 from rfl]
  dsimp only
  rw [if_neg one_ne_zero, if_neg (by norm_num), FP.Libm.ln_one]
  exact round_zero_is
theorem neg_ln_nn {u : F64} (u0 : (0 : F64) ≤ u) (u1 : u ≤ 1) : (0 : F64) ≤ -u.ln := by
  have h := neg_anti (ln_mono u0 u1)
  refine le_trans' ?_ h
  exact nn_is (k := 0) (ln_one_is.neg.congr neg_zero) le_rfl

/-- C252 (Fréchet, partial): for every accepted shape every sample is at least zero, never NaN. Missing: being a positive number. -/
theorem C252_frechet_partial {σ : Type} {g : RandSrc σ} (hg : InRange g) (s : σ) {a : F64} {d : Frechet} (h : Frechet.new a = .ok d) :
    ∃ x, (d.sample g s).1 = .ok x ∧ (0 : F64) ≤ x := by
  obtain ⟨h0, rfl⟩ := Frechet.new_ok.1 h
  obtain ⟨u, s', e, u0, u1, -⟩ := std_range hg s
  refine ⟨_, ?_, powf_nn_of (neg_ln_nn u0 u1) (inv_nn h0)⟩
  unfold Frechet.sample
  rw [e]
  dsimp only [Frechet.sampleFrom]

/-- a source that always answers with the lower end of the interval -/
noncomputable def lowSrc (σ : Type) : RandSrc σ where
  draw c s := (match c with
    | .uniformIncl lo _ => lo
    | .uniform lo _ => lo
    | _ => 0, s)
  drawNat _ s := (0, s)
  drawInt lo _ s := (lo, s)
  genBool _ s := (false, s)
/-- a source that answers `new_inclusive` with the upper end of the interval -/
noncomputable def highSrc (σ : Type) : RandSrc σ where
  draw c s := (match c with
    | .uniformIncl _ hi => hi
    | .uniform lo _ => lo
    | _ => 0, s)
  drawNat _ s := (0, s)
  drawInt lo _ s := (lo, s)
  genBool _ s := (false, s)
theorem lowSrc_inRange (σ : Type) : InRange (lowSrc σ) := fun _ _ _ =>
  ⟨fun h => ⟨le_rfl' (ne_nan_left h), h⟩, fun h => ⟨le_rfl' (ne_nan_left (le_of_lt' h)), h⟩⟩
theorem highSrc_inRange (σ : Type) : InRange (highSrc σ) := fun _ _ _ =>
  ⟨fun h => ⟨h, le_rfl' (ne_nan_right h)⟩, fun h => ⟨le_rfl' (ne_nan_left (le_of_lt' h)), h⟩⟩

theorem inv_pos_or {r : ℝ} (hr : 0 < r) (hr2 : r ≤ 2 ^ 1000) : (1 : F64) / fin r = pinf ∨ ∃ s, 0 < s ∧ (1 : F64) / fin r = fin s := by
  have h : fin (1 / 2 ^ 1000) ≤ (1 : F64) / fin r :=
    le_congr rfl (div_fin_ext Is.one (Is.fin r) hr.ne').symm (le_round_of_le (s := 1 / 2 ^ 1000) (by gcongr) (keep_eq 1 1000 (by norm_num) (by norm_num) le_rfl).1 (keep_eq 1 1000 (by norm_num) (by norm_num) le_rfl).2)
  have : (0 : F64) < 1 / fin r := lt_of_lt_of_le' (lt_of_pos (by positivity) (Is.fin _)) h
  rcases pos_cases this with h | ⟨s, h, hs⟩
  · exact Or.inl h
  · exact Or.inr ⟨s, hs, h⟩

/-- C252 (Fréchet, violated): whatever the shape (up to `2^1000`), the sample for the draw 0 is `+inf` and the sample for the draw 1 is
zero; neither is a positive number, and both draws are allowed. -/
theorem C252_frechet_violated {a : F64} {r : ℝ} {d : Frechet} (h : Frechet.new a = .ok d) (ha : a.Is r) (hr : r ≤ 2 ^ 1000) :
    (∀ (σ : Type) (g : RandSrc σ) s, (g.draw (.uniformIncl 0 (0 + 1)) s).1.Is 0 → (d.sample g s).1 = .ok pinf) ∧
    (∀ (σ : Type) (g : RandSrc σ) s, (g.draw (.uniformIncl 0 (0 + 1)) s).1.Is 1 → ∃ x, (d.sample g s).1 = .ok x ∧ x.Is 0) ∧
    ∃ g : RandSrc Unit, InRange g ∧ ¬ InSupport d.support (d.sample g ()).1 := by
  obtain ⟨h0, rfl⟩ := Frechet.new_ok.1 h
  have r0 := pos_of_lt h0 ha
  have e := ha.eq_fin r0.ne'
  subst e
  have hs : ∀ (σ : Type) (g : RandSrc σ) s, (Frechet.sample g s ⟨fin r⟩).1 = .ok (Frechet.sampleFrom ⟨fin r⟩ (g.draw (.uniformIncl 0 (0 + 1)) s).1) := fun σ g s => by
    have h0 : (0 : F64) ≤ 0 + 1 := (Is.zero.le_iff one_is_add).2 zero_le_one
    have : stdUniform g s = (.ok (g.draw (.uniformIncl 0 (0 + 1)) s).1, (g.draw (.uniformIncl 0 (0 + 1)) s).2) := by
      unfold stdUniform UniformF.sample RandSrc.sample
      exact if_pos h0
    unfold Frechet.sample
    rw [this]
  have A : ∀ (σ : Type) (g : RandSrc σ) s, (g.draw (.uniformIncl 0 (0 + 1)) s).1.Is 0 → (Frechet.sample g s ⟨fin r⟩).1 = .ok pinf := fun σ g s hg => by
    rw [hs]
    have : ((g.draw (.uniformIncl 0 (0 + 1)) s).1).ln = ninf := by
      rcases hg with h | ⟨h, _⟩ <;> rw [h] <;> simp [F64.ln, F64.logWith]
    unfold Frechet.sampleFrom
    rw [this, show -ninf = pinf from rfl]
    rcases inv_pos_or r0 hr with h | ⟨t, ht, h⟩ <;> dsimp only <;> rw [h]
    · simp [F64.powf]
    · rw [powf_pinf_pos (Is.fin t) ht]
  have B : ∀ (σ : Type) (g : RandSrc σ) s, (g.draw (.uniformIncl 0 (0 + 1)) s).1.Is 1 → ∃ x, (Frechet.sample g s ⟨fin r⟩).1 = .ok x ∧ x.Is 0 := fun σ g s hg => by
    refine ⟨_, hs σ g s, ?_⟩
    rw [hg.eq_fin one_ne_zero]
    unfold Frechet.sampleFrom
    have hz : (-(F64.ln (fin 1))).Is 0 := ln_one_is.neg.congr neg_zero
    rcases inv_pos_or r0 hr with h | ⟨t, ht, h⟩ <;> dsimp only <;> rw [h]
    · rcases hz with e | ⟨e, _⟩ <;> rw [e] <;> simp [F64.powf] <;> exact Is.fin 0
    · exact powf_zero_pos hz (Is.fin t) ht
  refine ⟨A, B, highSrc Unit, highSrc_inRange Unit, ?_⟩
  rintro ⟨x, y, hx, hy, hp⟩
  obtain ⟨z, hz, z0⟩ := B Unit (highSrc Unit) () one_is_add
  rw [hz] at hx
  cases hx
  rw [hy.eq z0] at hp
  exact lt_irrefl (0:ℝ) hp

theorem signum_fin {u : F64} {r : ℝ} (hu : u.Is r) : (r < 0 → u.signum = fin (-1)) ∧ ∃ k : ℝ, u.signum = fin k ∧ (k = 1 ∨ k = -1) := by
  rcases hu with rfl | ⟨rfl, rfl⟩
  · unfold F64.signum
    by_cases hr : r < 0
    · have : (F64.fin r).isNeg := hr
      dsimp only; rw [if_pos this]; exact ⟨fun _ => rfl, -1, rfl, Or.inr rfl⟩
    · have : ¬ (F64.fin r).isNeg := hr
      simp only [this, if_false]; exact ⟨fun h => absurd h hr, 1, rfl, Or.inl rfl⟩
  · refine ⟨fun h => absurd h (lt_irrefl _), -1, ?_, Or.inr rfl⟩
    simp [F64.signum, F64.isNeg]

theorem laplace_sample_eq (σ : Type) (g : RandSrc σ) (s : σ) (d : Laplace) :
    (d.sample g s).1 = .ok (d.sampleFrom (g.draw (.uniform (fin (-1 / 2)) (fin (1 / 2))) s).1) := by
  unfold Laplace.sample RandSrc.sample
  have : (RealSampler.uniform (fin (-1 / 2)) (fin (1 / 2))).Accepts := fin_lt_fin.2 (by norm_num)
  rw [if_pos this]
/-- the sign times a scale that is an `f64` is exact -/
theorem scale_sign {b : F64} {r k : ℝ} (hb : b.Rep r) (r0 : 0 < r) (hk : k = 1 ∨ k = -1) : b * fin k = fin (r * k) := by
  have h := mul_fin_ext hb.1 (Is.fin k)
  have h1 : FP.rnd (r * k) = r * k ∧ ¬ FP.huge (r * k) := by
    rcases hk with rfl | rfl
    · rw [mul_one]; exact hb.2
    · rw [mul_neg_one, FP.Lawful.rnd_neg, FP.Lawful.huge_neg, hb.2.1]; exact ⟨rfl, hb.2.2⟩
  have h2 : (F64.round (r * k)).Is (r * k) := by
    have := F64.round_is (r := r * k) (by rw [h1.1]; exact h1.2)
    rwa [h1.1] at this
  exact (h2.of_ext h.symm).eq_fin (by rcases hk with rfl | rfl <;> simp [r0.ne'])
theorem abs_is {u : F64} {t : ℝ} (h : u.Is t) : u.abs = fin |t| := by
  rcases h with rfl | ⟨rfl, rfl⟩
  · rfl
  · simp [F64.abs]
theorem laplace_ln {u : F64} {t : ℝ} (h : u.Is t) (t1 : |t| ≤ 1 / 2) : (1 - 2 * u.abs).ln ≠ nan := by
  rw [abs_is h]
  have h2 : Btw 0 1 (2 * fin |t|) := (Btw.num (Is.num 2)).mul (Btw.num (Is.fin _)) (keep 0 0) (keep 1 0) fun x y a b c d => by
    have : x = 2 := le_antisymm b a
    have : y = |t| := le_antisymm d c
    subst x y
    exact ⟨by positivity, by linarith⟩
  obtain ⟨v, hv, v0, v1⟩ := h2
  obtain ⟨c0, c1⟩ := one_sub_unit (nn_is hv v0) ((hv.le_iff Is.one).2 v1)
  exact ne_nan_left (ln_mono c0 c1)

/-- C252 (Laplace, partial): for finite parameters no sample is NaN. Missing: being finite. -/
theorem C252_laplace_partial {σ : Type} {g : RandSrc σ} (hg : InRange g) (s : σ) {a b : F64} {m r : ℝ} {d : Laplace}
    (h : Laplace.new a b = .ok d) (ha : a.Is m) (hb : b.Rep r) : ∃ x, (d.sample g s).1 = .ok x ∧ x ≠ nan := by
  obtain ⟨h0, rfl⟩ := Laplace.new_ok.1 h
  have r0 := pos_of_lt h0 hb.1
  refine ⟨_, laplace_sample_eq σ g s _, ?_⟩
  obtain ⟨h1, h2⟩ := (hg (fin (-1 / 2)) (fin (1 / 2)) s).2 (fin_lt_fin.2 (by norm_num))
  generalize (g.draw (.uniform (fin (-1 / 2)) (fin (1 / 2))) s).1 = u at h1 h2
  obtain ⟨t, ht, t1, t2⟩ := btw_of_le h1 (le_of_lt' h2)
  have hl := laplace_ln ht (abs_le.2 ⟨by linarith, t2⟩)
  obtain ⟨-, k, hk, hk1⟩ := signum_fin ht
  unfold Laplace.sampleFrom
  dsimp only
  rw [hk, scale_sign hb r0 hk1]
  have hn : r * k ≠ 0 := by rcases hk1 with rfl | rfl <;> simp [r0.ne']
  generalize (1 - 2 * u.abs).ln = L at hl
  have hm : fin (r * k) * L ≠ nan := by
    rcases hk1 with rfl | rfl
    · rw [mul_one]; exact const_mul_ne_nan r0 hl
    · change F64.mul _ _ ≠ nan
      cases L <;> simp [F64.mul, r0.ne', sinf, szero] at hl ⊢ <;> (try split_ifs) <;> first | trivial | exact fun h => round_ne_nan _ h
  have : ∀ x : F64, x ≠ nan → -x ≠ nan := fun x hx => by
    cases x with
    | nan => exact absurd rfl hx
    | fin r => change F64.neg (fin r) ≠ nan; simp only [F64.neg]; split_ifs <;> simp
    | _ => simp [show ∀ x : F64, -x = F64.neg x from fun _ => rfl, F64.neg]
  exact const_add_ne_nan (this _ hm) ha

/-- C252 (Laplace, violated): whatever the finite parameters, the sample for the draw `-1/2`, the lower end of the requested interval, is
`-inf`. -/
theorem C252_laplace_violated {a b : F64} {m r : ℝ} {d : Laplace} (h : Laplace.new a b = .ok d) (ha : a.Is m) (hb : b.Rep r) :
    (∀ (σ : Type) (g : RandSrc σ) s, (g.draw (.uniform (fin (-1 / 2)) (fin (1 / 2))) s).1.Is (-1 / 2) → (d.sample g s).1 = .ok ninf) ∧
    ∃ g : RandSrc Unit, InRange g ∧ ¬ InSupport d.support (d.sample g ()).1 := by
  obtain ⟨h0, rfl⟩ := Laplace.new_ok.1 h
  have r0 := pos_of_lt h0 hb.1
  have A : ∀ (σ : Type) (g : RandSrc σ) s, (g.draw (.uniform (fin (-1 / 2)) (fin (1 / 2))) s).1.Is (-1 / 2) →
      (Laplace.sample g s ⟨a, b⟩).1 = .ok ninf := fun σ g s hu => by
    rw [laplace_sample_eq, hu.eq_fin (by norm_num)]
    have e1 : (fin (-1 / 2)).abs = fin (1 / 2) := by rw [abs_is (Is.fin _)]; norm_num
    have e2 : (2 * fin (1 / 2)).Is 1 := by
      have := mul_fin_ext (Is.num 2) (Is.fin (1 / 2))
      rw [show (2 * (1 / 2) : ℝ) = 1 by norm_num] at this
      exact round_one_is.of_ext this.symm
    have e3 : (1 - 2 * fin (1 / 2)).Is 0 := by
      have := add_ext Is.one e2.neg
      rw [show (1 + -1 : ℝ) = 0 by norm_num] at this
      exact round_zero_is.of_ext this.symm
    have e4 : (1 - 2 * fin (1 / 2)).ln = ninf := by
      rcases e3 with h | ⟨h, _⟩ <;> rw [h] <;> simp [F64.ln, F64.logWith]
    unfold Laplace.sampleFrom
    dsimp only
    rw [e1, e4, (signum_fin (Is.fin _)).1 (by norm_num), scale_sign hb r0 (Or.inr rfl)]
    have e5 : fin (r * -1) * ninf = pinf := by
      change F64.mul _ _ = _
      simp [F64.mul, r0.ne', sinf, r0]
    rw [e5]
    exact congrArg _ (fin_add_ninf ha)
  refine ⟨A, lowSrc Unit, lowSrc_inRange Unit, ?_⟩
  rintro ⟨x, y, hx, hy, -⟩
  rw [A Unit (lowSrc Unit) () (Is.fin _)] at hx
  cases hx
  rcases hy with h | ⟨h, _⟩ <;> cases h

theorem round_grow {r : ℝ} (h : |r| ≤ 2 ^ 20 * 2 ^ 1000) : ∃ y, (F64.round r).Is y ∧ |y| ≤ 2 * |r| + 1 := by
  have he := FP.Lawful.rnd_err r
  have hb : |FP.rnd r| ≤ 2 * |r| + 1 := by
    have t := Within.tiny
    have t2 : (1:ℝ) / 2 ^ 120 ≤ 1 := by norm_num
    have t3 : |r| * (1 / 2 ^ 53) ≤ |r| * 1 := by gcongr; norm_num
    have := abs_sub_abs_le_abs_sub (FP.rnd r) r
    have h53 : |r| / 2 ^ 53 ≤ |r| := div_le_self (abs_nonneg r) (by norm_num)
    generalize (1:ℝ) / 2 ^ 1075 = T at *
    linarith
  refine ⟨FP.rnd r, F64.round_is (FP.Lawful.not_huge _ (hb.trans ?_)), hb⟩
  have e : (2:ℝ) ^ 1023 = 8 * (2 ^ 20 * 2 ^ 1000) := by rw [← pow_add, show (8:ℝ) = 2 ^ 3 by norm_num, ← pow_add]
  have : (1:ℝ) ≤ 2 ^ 1000 := one_le_pow₀ (by norm_num)
  rw [e]
  clear e he hb
  generalize (2:ℝ) ^ 1000 = M at *
  linarith
theorem add_grow {a b : F64} {r s : ℝ} (ha : a.Is r) (hb : b.Is s) (h : |r + s| ≤ 2 ^ 20 * 2 ^ 1000) : ∃ y, (a + b).Is y ∧ |y| ≤ 2 * |r + s| + 1 := by
  obtain ⟨y, hy, h⟩ := round_grow h
  exact ⟨y, hy.of_ext (add_ext ha hb).symm, h⟩
theorem mul_grow {a b : F64} {r s : ℝ} (ha : a.Is r) (hb : b.Is s) (h : |r * s| ≤ 2 ^ 20 * 2 ^ 1000) : ∃ y, (a * b).Is y ∧ |y| ≤ 2 * |r * s| + 1 := by
  obtain ⟨y, hy, h⟩ := round_grow h
  exact ⟨y, hy.of_ext (mul_fin_ext ha hb).symm, h⟩
/-- `m + v·n` stays finite -/
theorem locscale_grow {a b c : F64} {m v n : ℝ} (ha : a.Is m) (hb : b.Is v) (hc : c.Is n) (hm : |m| ≤ 2 ^ 1000) (hv : |v| ≤ 4 * 2 ^ 1000)
    (hn : |n| ≤ 64) : ∃ y, (a + b * c).Is y := by
  have h1 : |v * n| ≤ 256 * 2 ^ 1000 := by
    rw [abs_mul]
    calc |v| * |n| ≤ (4 * 2 ^ 1000) * 64 := by gcongr
      _ = _ := by ring
  have hM : (1:ℝ) ≤ 2 ^ 1000 := one_le_pow₀ (by norm_num)
  obtain ⟨y, hy, y1⟩ := mul_grow hb hc (by generalize (2:ℝ) ^ 1000 = M at *; linarith)
  obtain ⟨z, hz, -⟩ := add_grow ha hy (by
    have := abs_add_le m y
    generalize (2:ℝ) ^ 1000 = M at *; linarith)
  exact ⟨z, hz⟩

/-- C252 (normal): for parameters of magnitude at most `2^1000` every sample of a normal distribution is a finite number. -/
theorem C252_normal {σ : Type} {g : NormalRng σ} (hg : NormalInRange g) (s : σ) {a b : F64} {m v : ℝ} {d : UvNormal}
    (h : UvNormal.new a b = .ok d) (ha : a.Is m) (hb : b.Is v) (hm : |m| ≤ 2 ^ 1000) (hv : v ≤ 2 ^ 1000) :
    InSupport d.support (d.sample g s).1 := by
  obtain ⟨h0, rfl⟩ := UvNormal.new_ok.1 h
  have v0 := pos_of_lt h0 hb
  have e := hb.eq_fin v0.ne'
  subst e
  have hM : (1:ℝ) ≤ 2 ^ 1000 := one_le_pow₀ (by norm_num)
  have hs : Real.sqrt v ≤ 2 ^ 1000 := by
    rw [Real.sqrt_le_left (by positivity)]
    generalize (2:ℝ) ^ 1000 = M at *
    nlinarith
  have hs0 := Real.sqrt_nonneg v
  obtain ⟨q, hq, q1⟩ := round_grow (r := Real.sqrt v) (by rw [abs_of_nonneg hs0]; generalize (2:ℝ) ^ 1000 = M at *; linarith)
  have e : (fin v).sqrt = F64.round (Real.sqrt v) := by simp [F64.sqrt, not_lt.2 v0.le]
  obtain ⟨n, hn, n1⟩ := hg s
  rw [abs_of_nonneg hs0] at q1
  obtain ⟨y, hy⟩ := locscale_grow ha hq hn hm (by generalize (2:ℝ) ^ 1000 = M at *; linarith) n1
  refine ⟨_, y, ?_, hy, trivial⟩
  unfold UvNormal.sample
  dsimp only
  rw [e, if_pos hq.isFinite]

/-- C252 (folded normal): for parameters of magnitude at most `2^1000` every sample of a folded normal distribution is a non-negative
number. -/
theorem C252_folded_normal {σ : Type} {g : NormalRng σ} (hg : NormalInRange g) (s : σ) {a b : F64} {m v : ℝ} {d : FoldedNormal}
    (h : FoldedNormal.new a b = .ok d) (ha : a.Is m) (hb : b.Is v) (hm : |m| ≤ 2 ^ 1000) (hv : v ≤ 2 ^ 1000) :
    InSupport d.support (d.sample g s).1 := by
  obtain ⟨h0, rfl⟩ := FoldedNormal.new_ok.1 h
  have v0 := pos_of_lt h0 hb
  obtain ⟨n, hn, n1⟩ := hg s
  have hM : (1:ℝ) ≤ 2 ^ 1000 := one_le_pow₀ (by norm_num)
  obtain ⟨y, hy⟩ := locscale_grow ha hb hn hm (by rw [abs_of_pos v0]; generalize (2:ℝ) ^ 1000 = M at *; linarith) n1
  refine ⟨_, |y|, ?_, (Is.fin |y|).congr rfl, abs_nonneg y⟩
  unfold FoldedNormal.sample
  dsimp only
  rw [if_pos hb.isFinite, ← abs_is hy]

/-- C252 (log-normal, partial): when the mean and the standard deviation are finite, every sample of a log-normal distribution is at least
zero, never NaN. Missing: being a positive number. -/
theorem C252_lognormal_partial {σ : Type} {g : NormalRng σ} (hg : NormalInRange g) (s : σ) (d : LogNormal)
    {m v : ℝ} (hm : d.mean.Is m) (hv : d.standardDeviation.Is v) : ∃ x, (d.sample g s).1 = .ok x ∧ (0 : F64) ≤ x := by
  obtain ⟨n, hn, n1⟩ := hg s
  refine ⟨(d.mean + d.standardDeviation * (g.draw s).1).exp, ?_, exp_nonneg ?_⟩
  · unfold LogNormal.sample
    rw [if_pos (by rcases hv with h | ⟨h, _⟩ <;> rw [h] <;> simp)]
  · refine const_add_ne_nan ?_ hm
    have := mul_fin_ext hv hn
    intro hh
    rw [hh] at this
    exact round_ne_nan (v * n) (by cases h2 : F64.round (v * n) <;> simp_all)
end
end Rstat
