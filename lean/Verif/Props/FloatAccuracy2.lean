import Verif.Props.FloatAccuracy
import Verif.Props.FloatPmf3
import Verif.Props.Dist.Frechet
import Verif.Props.Dist.Pareto
import Verif.Props.Dist.Weibull
import Verif.Props.Dist.LogNormal

/-! C251 continued: the families with a power, the log-normal, and the counterexamples. -/
set_option linter.unusedSectionVars false
namespace Rstat
open F64 Spec Consts

/-- perturbation of a logarithm -/
theorem log_pert {q Q : ℝ} (hq : 0 < q) (h : |Q - q| ≤ q / 2 ^ 52) : 0 < Q ∧ |Real.log Q - Real.log q| ≤ 1 / 2 ^ 51 := by
  have h52 : q / 2 ^ 52 ≤ q / 2 := by gcongr; norm_num
  have hQ : q / 2 ≤ Q := by have := (abs_le.1 h).1; linarith
  have hQ0 : 0 < Q := by linarith
  refine ⟨hQ0, ?_⟩
  obtain ⟨h1, h2⟩ := abs_le.1 h
  rw [abs_le]
  have e1 := Real.log_le_sub_one_of_pos (div_pos hQ0 hq)
  have e2 := Real.log_le_sub_one_of_pos (div_pos hq hQ0)
  rw [Real.log_div hQ0.ne' hq.ne'] at e1
  rw [Real.log_div hq.ne' hQ0.ne'] at e2
  have f1 : Q / q - 1 ≤ 1 / 2 ^ 51 := by
    rw [div_sub_one hq.ne', div_le_iff₀ hq]
    generalize q = w at *; norm_num at *; linarith
  have f2 : q / Q - 1 ≤ 1 / 2 ^ 51 := by
    rw [div_sub_one hQ0.ne', div_le_iff₀ hQ0]
    norm_num at *; linarith
  constructor <;> linarith

/-- plain mean value theorem -/
theorem mvt_one {g g' : ℝ → ℝ} (hg : ∀ x, HasDerivAt g (g' x) x) {z Z : ℝ} (hD : ∀ x ∈ Set.uIcc z Z, |g' x| ≤ 1) : |g Z - g z| ≤ |Z - z| := by
  have := Convex.norm_image_sub_le_of_norm_hasDerivWithin_le (f := g) (f' := g') (s := Set.uIcc z Z) (x := z) (y := Z) (C := 1)
    (fun x _ => (hg x).hasDerivWithinAt) (fun x hx => by rw [Real.norm_eq_abs]; exact hD x hx) (convex_uIcc z Z) Set.left_mem_uIcc Set.right_mem_uIcc
  rwa [Real.norm_eq_abs, Real.norm_eq_abs, one_mul] at this

/-- perturbation of a power at most one -/
theorem pow_pert {q Q k : ℝ} (hq : 0 < q) (hq1 : q ≤ 1) (hQ1 : Q ≤ 1) (hk : 0 < k) (h : |Q - q| ≤ q / 2 ^ 52) :
    |Q ^ k - q ^ k| ≤ k / 2 ^ 51 := by
  obtain ⟨hQ, hl⟩ := log_pert hq h
  rw [Real.rpow_def_of_pos hQ, Real.rpow_def_of_pos hq]
  have l1 : Real.log Q * k ≤ 0 := mul_nonpos_of_nonpos_of_nonneg (Real.log_nonpos hQ.le hQ1) hk.le
  have l2 : Real.log q * k ≤ 0 := mul_nonpos_of_nonpos_of_nonneg (Real.log_nonpos hq.le hq1) hk.le
  refine (mvt_one Real.hasDerivAt_exp (fun x hx => ?_)).trans ?_
  · rw [abs_of_pos (Real.exp_pos x)]; exact Real.exp_le_one_iff.2 (hx.2.trans (max_le l2 l1))
  · rw [← sub_mul, abs_mul, abs_of_pos hk]
    calc _ ≤ 1 / 2 ^ 51 * k := by gcongr
      _ = k / 2 ^ 51 := by ring

/-- perturbation of `exp (-q^k)` -/
theorem expow_pert {q Q k : ℝ} (hq : 0 < q) (hk : 0 < k) (h : |Q - q| ≤ q / 2 ^ 52) :
    |Real.exp (-Q ^ k) - Real.exp (-q ^ k)| ≤ k / 2 ^ 51 := by
  obtain ⟨hQ, hl⟩ := log_pert hq h
  rw [Real.rpow_def_of_pos hQ, Real.rpow_def_of_pos hq]
  refine (mvt_one (g := fun v : ℝ => Real.exp (-Real.exp v)) dexp_deriv (fun x _ => dexp_D x)).trans ?_
  rw [← sub_mul, abs_mul, abs_of_pos hk]
  calc _ ≤ 1 / 2 ^ 51 * k := by gcongr
    _ = k / 2 ^ 51 := by ring

section
variable [FP] [FP.Lawful]

/-- a quotient that neither overflows nor underflows -/
theorem quot_at {x y : F64} {r s : ℝ} (hx : x.Is r) (hy : y.Is s) (hr : 0 < r) (hs : 0 < s) (h1 : 1 / 2 ^ 900 ≤ r / s)
    (h2 : r / s ≤ 2 ^ 1000) : ∃ Q, (x / y).Is Q ∧ |Q - r / s| ≤ r / s / 2 ^ 52 := by
  have q0 : 0 < r / s := by positivity
  have nh : ¬ FP.huge (FP.rnd (r / s)) := fun hh => by
    have := huge_big hh
    rw [abs_of_pos q0] at this
    exact absurd (this.trans h2) (not_le.2 (pow_lt_pow_right₀ (by norm_num) (by norm_num)))
  refine ⟨_, div_is hx hy hs.ne' nh, ?_⟩
  have e := FP.Lawful.rnd_err (r / s)
  rw [abs_of_pos q0] at e
  have t : (1:ℝ) / 2 ^ 1075 ≤ 1 / 2 ^ 900 / 2 ^ 53 := by
    rw [div_div, ← pow_add]; exact one_div_le_one_div_of_le (by positivity) (pow_le_pow_right₀ (by norm_num) (by norm_num))
  have t2 : (1:ℝ) / 2 ^ 900 / 2 ^ 53 ≤ r / s / 2 ^ 53 := by gcongr
  have t3 := t.trans t2
  generalize (1:ℝ) / 2 ^ 1075 = η at *
  clear h1 h2 t t2
  generalize r / s = q at *
  norm_num at *; linarith

variable [FP.Accurate] [FP.Libm]

/-- the exponential of minus a power -/
theorem expow_within {a e : F64} {r s : ℝ} (ha : a.Is r) (he : e.Is s) (hr : 0 < r) (hs : s ≠ 0) :
    Within ((-(a.powf e)).exp) (Real.exp (-r ^ s)) (1 / 2 ^ 49) := by
  have p0 := Real.rpow_pos_of_pos hr s
  rcases pow_at ha he hr hs with ⟨P, hP, h0, hP2⟩ | ⟨hi, hb⟩
  · refine zed_expneg p0.le (Or.inl ⟨-P, hP.neg, ?_⟩) (fun Z hZ => by rw [← hP.neg.eq hZ]; linarith)
    rw [abs_neg, abs_of_pos p0, show -P - -(r ^ s) = -(P - r ^ s) by ring, abs_neg]; exact hP2
  · rw [hi]
    refine ⟨0, Is.fin 0, ?_⟩
    rw [zero_sub, abs_neg, abs_of_pos (Real.exp_pos _)]
    exact (exp_neg_small (p1021.trans hb)).trans (by norm_num)

/-- C251: the Fréchet distribution function is within 2^-47 of the real one at every positive f64, for every finite shape -/
theorem C251_frechet {a : F64} {α : ℝ} {d : Frechet} (h : Frechet.new a = .ok d) (ha : a.Is α) :
    AccurateCDF d.cdf (frechetCDF α) (Set.Ioi 0) (1 / 2 ^ 47) := by
  obtain ⟨h0, rfl⟩ := Frechet.new_ok.1 h
  have hα := pos_of_lt h0 ha
  intro x r _ hx hr
  have hr : 0 < r := hr
  have := (expow_within hx ha.neg hr (by linarith : -α ≠ 0)).mono (δ := 1 / 2 ^ 47) (by norm_num)
  have e : frechetCDF α r = Real.exp (-r ^ (-α)) := by unfold frechetCDF; rw [if_neg (not_le.2 hr)]
  rw [e]; exact this

/-- C251 (part): the Pareto distribution function is within `(α + 8) 2^-51` of the real one from the scale up to 2^900 times the scale
(beyond, `xm / x` may underflow: see `C251_pareto_violated`) -/
theorem C251_pareto_partial {a b : F64} {m α : ℝ} {d : Pareto} (h : Pareto.new a b = .ok d) (ha : a.Is m) (hm : 0 < m) (hb : b.Is α) :
    AccurateCDF d.cdf (paretoCDF m α) {r | m ≤ r ∧ r / m ≤ 2 ^ 900} ((α + 8) / 2 ^ 51) := by
  obtain ⟨h0, rfl⟩ := Pareto.new_ok.1 h
  have hα := pos_of_lt h0 hb
  rintro x r _ hx ⟨hr, hr2⟩
  have r0 : 0 < r := hm.trans_le hr
  have q1 : m / r ≤ 1 := (div_le_one r0).2 hr
  have q0 : 0 < m / r := by positivity
  obtain ⟨Q, hQ, hQe⟩ := quot_at ha hx hm r0 (by
    rw [div_le_iff₀ hm] at hr2
    rw [le_div_iff₀ r0, one_div, inv_mul_le_iff₀ (by positivity)]; exact hr2)
    (q1.trans (one_le_pow₀ (by norm_num)))
  have hQ1 : Q ≤ 1 := by
    have e := div_fin_ext ha hx r0.ne'
    have h1 : F64.round (m / r) ≤ F64.round 1 := round_mono q1
    exact (hQ.le_iff round_one_is).1 (le_congr e.symm rfl h1)
  have hp := pow_pert q0 q1 hQ1 hα hQe
  obtain ⟨hQ0, _⟩ := log_pert q0 hQe
  have P1 : Q ^ α ≤ 1 := Real.rpow_le_one hQ0.le hQ1 hα.le
  have P0 := Real.rpow_pos_of_pos hQ0 α
  have p1 : (m / r) ^ α ≤ 1 := Real.rpow_le_one q0.le q1 hα.le
  have p0 := Real.rpow_pos_of_pos q0 α
  have hw : Within ((a / x).powf b) (Q ^ α) (1 / 2 ^ 51 + 1 / 2 ^ 120) := by
    rcases pow_at hQ hb hQ0 hα.ne' with ⟨P, hP, _, hP2⟩ | ⟨_, hbig⟩
    · refine ⟨P, hP, hP2.trans ?_⟩; gcongr
    · exfalso
      have : (1:ℝ) < 2 ^ 1021 := one_lt_pow₀ (by norm_num) (by norm_num)
      exact absurd (hbig.trans P1) (not_le.2 this)
  have hs := Within.sub (ρ := 8 / 2 ^ 51) 1 (Within.exact Is.one) hw (by rw [abs_le]; constructor <;> linarith) (by norm_num) (by norm_num)
  have e : paretoCDF m α r = 1 - (m / r) ^ α := by
    unfold paretoCDF; split_ifs with h
    · rw [le_antisymm h hr, div_self (by linarith), Real.one_rpow, sub_self]
    · rfl
  rw [e]
  refine hs.shift ?_
  rw [sub_sub_sub_cancel_left, abs_sub_comm, add_div]
  linarith

/-- C251 (part): the Weibull distribution function is within `k 2^-51 + 2^-47` of the real one at 0 and between 2^-900 and 2^1000 times the scale
(outside, `x / lambda` may underflow or overflow: see `C251_weibull_violated`) -/
theorem C251_weibull_partial {a b : F64} {l k : ℝ} {d : Weibull} (h : Weibull.new a b = .ok d) (ha : a.Is l) (hb : b.Is k) :
    AccurateCDF d.cdf (weibullCDF l k) {r | r = 0 ∨ 0 < r ∧ 1 / 2 ^ 900 ≤ r / l ∧ r / l ≤ 2 ^ 1000} (k / 2 ^ 51 + 1 / 2 ^ 47) := by
  obtain ⟨h0, h1, rfl⟩ := Weibull.new_ok.1 h
  have hl := pos_of_lt h0 ha
  have hk := pos_of_lt h1 hb
  rintro x r _ hx hr
  have hx0 : (0 : F64) ≤ x := (Is.zero.le_iff hx).2 (by rcases hr with rfl | h; exacts [le_rfl, h.1.le])
  unfold Weibull.cdf
  rw [if_pos hx0]
  have one : ∀ {c : F64} {t ε : ℝ}, Within c t ε → 0 ≤ t → t ≤ 1 → ε ≤ 1 / 2 ^ 49 →
      Within ((1 : F64) - c) (1 - t) (1 / 2 ^ 47) := fun hw t0 t1 hε =>
    Within.sub 1 (Within.exact Is.one) (hw.mono hε) (by rw [abs_le]; constructor <;> linarith) (by norm_num) (by norm_num)
  rcases hr with rfl | ⟨hr, hq1, hq2⟩
  · have hz : (x / a).Is 0 := by
      rw [div_finite hx ha hl.ne', if_pos rfl]; exact szero_is _
    have hp := powf_zero_pos hz hb hk
    have he := exp_zero (hp.neg.congr neg_zero)
    have h2 := one (c := (-(x / a).powf b).exp) (t := 1) (ε := 0) (by rw [he]; exact Within.exact (Is.fin 1)) (by norm_num) le_rfl (by norm_num)
    have e : weibullCDF l k 0 = 1 - 1 := by unfold weibullCDF; rw [if_pos le_rfl]; norm_num
    rw [e]
    exact h2.mono (by have : 0 ≤ k / 2 ^ 51 := by positivity
                      linarith)
  · have q0 : 0 < r / l := by positivity
    obtain ⟨Q, hQ, hQe⟩ := quot_at hx ha hr hl hq1 hq2
    obtain ⟨hQ0, _⟩ := log_pert q0 hQe
    have hp := expow_pert q0 hk hQe
    have hw := expow_within hQ hb hQ0 hk.ne'
    have P0 := Real.exp_pos (-Q ^ k)
    have P1 : Real.exp (-Q ^ k) ≤ 1 := Real.exp_le_one_iff.2 (by linarith [Real.rpow_pos_of_pos hQ0 k])
    have h2 := one hw P0.le P1 le_rfl
    have e : weibullCDF l k r = 1 - Real.exp (-(r / l) ^ k) := by unfold weibullCDF; rw [if_neg (not_le.2 hr)]
    rw [e]
    refine h2.shift ?_
    rw [sub_sub_sub_cancel_left, abs_sub_comm]
    linarith

variable [FP.SpecialFns]

/-- C251 (part): the log-normal distribution function at `x` is within `2^-47 + K 2^-51` of the real one, where `K` bounds the
ratio of `1 + |ln x|` to the log-scale standard deviation -/
theorem C251_lognormal_partial {a b : F64} {m v K : ℝ} {d : LogNormal} (h : LogNormal.new a b = .ok d) (fa : IsF64 a) (ha : a.Is m)
    (fb : IsF64 b) (hb : b.Is v) :
    AccurateCDF d.cdf (logNormalCDF m v) {r | 0 < r ∧ |Real.log r| ≤ 2 ^ 100 ∧ 1 + |Real.log r| ≤ K * √v} (1 / 2 ^ 47 + K / 2 ^ 51) := by
  obtain ⟨h0, rfl⟩ := LogNormal.new_ok.1 h
  rintro x r _ hx ⟨hr, hlog, hK⟩
  have hv := pos_of_lt h0 hb
  have sv : 0 < √v := Real.sqrt_pos.2 hv
  have acc := FP.Accurate.ln_acc r hr
  have e1 : x.ln = F64.round (FP.fln r) := by
    rw [hx.eq_fin hr.ne']; unfold F64.ln F64.logWith; dsimp only; rw [if_neg hr.ne', if_neg (not_lt.2 hr.le)]
  have nh : ¬ FP.huge (FP.rnd (FP.fln r)) := Within.huge_ok (M := 2 ^ 101) (by
    have := abs_add_le (FP.fln r - Real.log r) (Real.log r)
    rw [sub_add_cancel] at this
    have h2 : |Real.log r| / 2 ^ 52 ≤ |Real.log r| := div_le_self (abs_nonneg _) (one_le_pow₀ (by norm_num))
    have h3 : (2:ℝ) ^ 101 = 2 * 2 ^ 100 := by norm_num
    linarith) (by norm_num)
  have hL : x.ln.Is (FP.rnd (FP.fln r)) := by rw [e1]; exact round_is nh
  set L := FP.rnd (FP.fln r) with hLdef
  have fL : IsF64 x.ln := fun t ht => by
    rw [← hL.eq ht]; exact ⟨FP.Lawful.rnd_idem _, nh⟩
  have hLe : |L - Real.log r| ≤ (1 + |Real.log r|) / 2 ^ 51 := by
    have e := FP.Lawful.rnd_err (FP.fln r)
    have t := Within.tiny
    have h1 := abs_add_le (L - FP.fln r) (FP.fln r - Real.log r)
    rw [sub_add_sub_cancel] at h1
    have h2 := abs_add_le (FP.fln r - Real.log r) (Real.log r)
    rw [sub_add_cancel] at h2
    generalize (1:ℝ) / 2 ^ 1075 = η at *
    have h3 : |FP.fln r| / 2 ^ 53 ≤ (|Real.log r| / 2 ^ 52 + |Real.log r|) / 2 ^ 53 := by gcongr; linarith
    have h0 := abs_nonneg (Real.log r)
    generalize |Real.log r| = w at *
    clear hK hlog
    norm_num at *; linarith
  have hn := C251_normal (UvNormal.new_ok.2 ⟨h0, rfl⟩) fa ha fb hb x.ln L fL hL trivial
  obtain ⟨p, hp, hp2⟩ := hn
  refine ⟨p, hp, ?_⟩
  have e2 : logNormalCDF m v r = Phi ((Real.log r - m) / √v) := by unfold logNormalCDF; rw [if_neg (not_le.2 hr)]
  rw [e2]
  have h3 := mvt_one Spec.Phi_hasDerivAt (z := (Real.log r - m) / √v) (Z := (L - m) / √v) (fun x _ => phi_D x)
  have h4 : |(L - m) / √v - (Real.log r - m) / √v| ≤ K / 2 ^ 51 := by
    rw [← sub_div, sub_sub_sub_cancel_right, abs_div, abs_of_pos sv, div_le_iff₀ sv]
    refine hLe.trans ?_
    rw [div_mul_eq_mul_div]; gcongr
  have h5 := abs_sub_le p (Phi ((L - m) / √v)) (Phi ((Real.log r - m) / √v))
  dsimp only at hp2
  linarith

end
end Rstat
