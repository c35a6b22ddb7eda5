import Verif.Spec.Links
import Verif.Props.Dist.Exponential
import Verif.Props.Dist.Gamma
import Verif.Props.Dist.Erlang
import Verif.Props.Dist.Weibull
import Verif.Props.Dist.Chi
import Verif.Props.Dist.Rayleigh

/-! Properties C237-C238: families that name the same law return the same numbers. -/
set_option linter.unusedSectionVars false
namespace Rstat
open F64 Consts Spec MeasureTheory ProbabilityTheory Set

/-! ### general lemmas -/
theorem Spec.SameOn.of {S T U : Set ℝ} {f g : F64 → F64} {F G : ℝ → ℝ} (hf : Computes f F S) (hg : Computes g G T) (h1 : U ⊆ S) (h2 : U ⊆ T)
    (h : ∀ t ∈ U, F t = G t) : SameOn U f g := fun a t ht ha => ⟨F t, hf a t (h1 ht) ha, (h t ht) ▸ hg a t (h2 ht) ha⟩
theorem ae_off {f g : ℝ → ℝ} {s : Set ℝ} (hs : s.Finite) (h : ∀ x, x ∉ s → f x = g x) : f =ᵐ[volume] g := by
  have : sᶜ ∈ ae (volume : Measure ℝ) := compl_mem_ae_iff.2 (hs.measure_zero volume)
  filter_upwards [this] with x hx using h x hx
section
variable {f g : ℝ → ℝ} (e : f =ᵐ[volume] g)
include e
theorem Spec.HasMean.ae {m : ℝ} (h : HasMean f m) : HasMean g m := by
  have : (fun x => x * f x) =ᵐ[volume] fun x => x * g x := by filter_upwards [e] with x hx; rw [hx]
  exact ⟨h.1.congr this, (integral_congr_ae this).symm.trans h.2⟩
theorem Spec.HasCentral.ae {m v : ℝ} {k : ℕ} (h : HasCentral f m k v) : HasCentral g m k v := by
  have : (fun x => (x - m) ^ k * f x) =ᵐ[volume] fun x => (x - m) ^ k * g x := by filter_upwards [e] with x hx; rw [hx]
  exact ⟨h.1.congr this, (integral_congr_ae this).symm.trans h.2⟩
theorem Spec.HasMeanVar.ae {m v : ℝ} (h : HasMeanVar f m v) : HasMeanVar g m v := ⟨h.1.ae e, h.2.ae e⟩
theorem Spec.HasSkew.ae {s : ℝ} (h : HasSkew f s) : HasSkew g s := by
  obtain ⟨m, v, hv, h1, h2⟩ := h; exact ⟨m, v, hv, h1.ae e, h2.ae e⟩
theorem Spec.HasKurt.ae {s : ℝ} (h : HasKurt f s) : HasKurt g s := by
  obtain ⟨m, v, hv, h1, h2⟩ := h; exact ⟨m, v, hv, h1.ae e, h2.ae e⟩
theorem Spec.HasEntropy.ae {s : ℝ} (h : HasEntropy f s) : HasEntropy g s := by
  have : (fun x => f x * Real.log (f x)) =ᵐ[volume] fun x => g x * Real.log (g x) := by filter_upwards [e] with x hx; rw [hx]
  exact ⟨h.1.congr this, (congrArg Neg.neg (integral_congr_ae this)).symm.trans h.2⟩
theorem same_meanVar {x y x' y' : F64} (h : ∃ m v, x.Is m ∧ y.Is v ∧ HasMeanVar f m v)
    (h' : ∃ m v, x'.Is m ∧ y'.Is v ∧ HasMeanVar g m v) : SameVal x x' ∧ SameVal y y' := by
  obtain ⟨m, v, h1, h2, h3⟩ := h
  obtain ⟨m', v', h1', h2', h3'⟩ := h'
  obtain ⟨rfl, rfl⟩ := (h3.ae e).unique h3'
  exact ⟨⟨_, h1, h1'⟩, ⟨_, h2, h2'⟩⟩
theorem same_skew {x x' : F64} (h : ∃ s, x.Is s ∧ HasSkew f s) (h' : ∃ s, x'.Is s ∧ HasSkew g s) : SameVal x x' := by
  obtain ⟨m, h1, h3⟩ := h
  obtain ⟨m', h1', h3'⟩ := h'
  obtain rfl := (h3.ae e).unique h3'
  exact ⟨_, h1, h1'⟩
theorem same_entropy {x x' : F64} (h : ∃ s, x.Is s ∧ HasEntropy f s) (h' : ∃ s, x'.Is s ∧ HasEntropy g s) : SameVal x x' := by
  obtain ⟨m, h1, h3⟩ := h
  obtain ⟨m', h1', h3'⟩ := h'
  obtain rfl := (h3.ae e).unique h3'
  exact ⟨_, h1, h1'⟩
end

/-! ### the exponential law -/
section
variable [FP] [FP.Exact] {l : F64} {lam : ℝ} {e : Exponential}

/-- C237: `Exponential(λ)` and `Gamma(1, λ)`: cdf and pdf on (0, ∞), mean, variance, skewness, excess kurtosis, mode and entropy agree. -/
theorem C237_exponential_gamma (h : Exponential.new l = .ok e) (hl : l.Is lam) {a : F64} {g : Gamma} (ha : a.Is 1)
    (hg : Gamma.new a l = .ok g) :
    SameOn (Ioi 0) (fun x => (e.cdf x).val) (fun x => (g.cdf x).val) ∧ SameOn (Ioi 0) e.pdf g.pdf ∧
    SameVal e.mean g.mean ∧ SameVal e.variance g.variance ∧ SameVal e.skewness g.skewness ∧
    SameVal e.excessKurtosis g.excessKurtosis ∧ SameVal e.shannonEntropy g.shannonEntropy ∧
    ∃ ms, g.modes = .ok ms ∧ SameList e.modes ms := by
  have pe : ∀ x, expPDF lam x = gammaPDFReal 1 lam x := fun x => by
    unfold expPDF gammaPDFReal; split_ifs with hx
    · simp
    · rfl
  have E := C61_exponential h hl
  have G := C96_gamma hg ha hl
  have ae : expPDF lam =ᵐ[volume] gammaPDFReal 1 lam := Filter.Eventually.of_forall pe
  obtain ⟨hlam, ec, ep, -, ed, -, emv, es, -, ee, ⟨em, -⟩, -⟩ := E
  obtain ⟨-, -, gp, gd, -, gmv, gs, ⟨κ, -, gk, hk⟩, ge, -⟩ := G
  have gc := (C128_gamma_cdf_partial hg ha hl (Or.inl rfl)).1
  have hF : expCDF lam = gammaCDF 1 lam := by
    have : gammaPDFReal 1 lam = expPDF lam := funext fun x => (pe x).symm
    rw [this] at gd; exact ed.unique gd
  obtain ⟨s1, s2⟩ := same_meanVar ae emv gmv
  obtain ⟨_, _, rfl⟩ := Gamma.new_ok.1 hg
  refine ⟨SameOn.of ec gc Ioi_subset_Ici_self subset_rfl fun t _ => by rw [hF], SameOn.of ep gp Ioi_subset_Ici_self subset_rfl fun t _ => pe t,
    s1, s2, same_skew ae es gs, ⟨6, Is.num 6, ?_⟩, same_entropy ae ee ge, [(a - 1) / l], ?_, ?_⟩
  · unfold Gamma.excessKurtosis; exact ((Is.num 6).div ha one_ne_zero).congr (by norm_num)
  · unfold Gamma.modes
    rw [if_neg fun hc => absurd ((ha.lt_iff Is.one).1 hc) (lt_irrefl _)]
  · rw [em]; exact List.Forall₂.cons ⟨0, Is.zero, ((ha.sub Is.one).div hl hlam.ne').congr (by simp)⟩ .nil

/-- C237: `Exponential(λ)` and `Erlang(1, λ)`: cdf and pdf on (0, ∞) (where Erlang's do not panic), mean, variance, skewness, mode. -/
theorem C237_exponential_erlang (h : Exponential.new l = .ok e) (hl : l.Is lam) {g : Erlang} (hg : Erlang.new 1 l = .ok g) (pr : Profile) :
    (∀ (x : F64) (t : ℝ), 0 < t → x.Is t → ∃ c p, g.cdf pr x = .ok c ∧ g.pdf pr x = .ok p ∧
      SameVal (e.cdf x).val c.val ∧ SameVal (e.pdf x) p) ∧
    SameVal e.mean g.mean ∧ SameVal e.variance g.variance ∧ SameVal e.skewness g.skewness ∧
    SameVal e.excessKurtosis g.excessKurtosis ∧ ∃ ms, g.modes pr = .ok ms ∧ SameList e.modes ms := by
  have pe : ∀ x, expPDF lam x = gammaPDFReal (1:ℕ) lam x := fun x => by
    unfold expPDF gammaPDFReal; split_ifs with hx
    · simp
    · rfl
  have ae : expPDF lam =ᵐ[volume] gammaPDFReal (1:ℕ) lam := Filter.Eventually.of_forall pe
  obtain ⟨hlam, ec, ep, -, ed, -, emv, es, -, ee, ⟨em, -⟩, -⟩ := C61_exponential h hl
  obtain ⟨-, -, gd, gmv, gs, ⟨κ, gk, hk⟩, -⟩ := C137_erlang hg hl
  have hmo : ∃ ms, g.modes pr = .ok ms ∧ SameList e.modes ms := by
    obtain ⟨_, rfl⟩ := Exponential.new_ok.1 h
    obtain ⟨_, _, rfl⟩ := Erlang.new_ok.1 hg
    refine ⟨[F64.ofNat 0 / l], ?_, ?_⟩
    · unfold Erlang.modes; rfl
    · rw [em]; exact List.Forall₂.cons ⟨0, Is.zero, ((Is.ofNat 0).div hl hlam.ne').congr (by simp)⟩ .nil
  have hF : expCDF lam = gammaCDF (1:ℕ) lam := by
    have : gammaPDFReal (1:ℕ) lam = expPDF lam := funext fun x => (pe x).symm
    rw [this] at gd; exact ed.unique gd
  obtain ⟨s1, s2⟩ := same_meanVar ae emv gmv
  obtain ⟨-, hsk, hku⟩ := exp_moments hlam
  have := (hku.ae ae).unique hk
  refine ⟨fun x t ht hx => ?_, s1, s2, same_skew ae es gs, ⟨6, Is.num 6, ?_⟩, hmo⟩
  · obtain ⟨c, hc, hc'⟩ := C139_erlang_cdf_partial hg hl pr ht hx
    obtain ⟨p, hp, hp'⟩ := C138_erlang_pdf_partial hg hl pr ht hx
    exact ⟨c, p, hc, hp, ⟨_, ec x t (mem_Ici.2 ht.le) hx, hF ▸ hc'⟩, ⟨_, ep x t (mem_Ici.2 ht.le) hx, (pe t) ▸ hp'⟩⟩
  · rw [← this] at gk; exact gk.congr (by norm_num)

/-- C237: `Exponential(λ)` and `Weibull(1/λ, 1)`: cdf and pdf on (0, ∞), mean, variance, skewness, excess kurtosis, median, mode,
entropy. -/
theorem C237_exponential_weibull (h : Exponential.new l = .ok e) (hl : l.Is lam) {a b : F64} {w : Weibull} (ha : a.Is (1 / lam)) (hb : b.Is 1)
    (hw : Weibull.new a b = .ok w) :
    SameOn (Ioi 0) (fun x => (e.cdf x).val) (fun x => (w.cdf x).val) ∧ SameOn (Ioi 0) e.pdf w.pdf ∧
    SameVal e.mean w.mean ∧ SameVal e.variance w.variance ∧ SameVal e.skewness w.skewness ∧
    SameVal e.excessKurtosis w.excessKurtosis ∧ SameVal e.median w.median ∧ SameVal e.shannonEntropy w.shannonEntropy ∧
    SameList e.modes w.modes := by
  obtain ⟨hlam, ec, ep, -, ed, -, emv, es, ⟨em, em1, em2⟩, ee, ⟨emo, -⟩, -⟩ := C61_exponential h hl
  obtain ⟨-, -, wc, wp, -, wd, wmv, ws, ⟨κ, hk, wk⟩, ⟨wm, wm1, wm2⟩, we⟩ := C70_weibull hw ha hb
  have hdiv : ∀ x : ℝ, x / (1 / lam) = lam * x := fun x => by field_simp
  have pe : ∀ x, x ≠ 0 → expPDF lam x = weibullPDF (1 / lam) 1 x := fun x hx0 => by
    unfold expPDF weibullPDF
    rcases lt_or_gt_of_ne hx0 with hx | hx
    · rw [if_neg (not_le.2 hx), if_pos hx.le]
    · rw [if_pos hx.le, if_neg (not_le.2 hx), hdiv x, hdiv 1, sub_self, Real.rpow_zero, Real.rpow_one, mul_one, mul_one]
  have ae : expPDF lam =ᵐ[volume] weibullPDF (1 / lam) 1 := ae_off (Set.finite_singleton 0) fun x hx => pe x hx
  have ce : ∀ x, expCDF lam x = weibullCDF (1 / lam) 1 x := fun x => by
    unfold expCDF weibullCDF; rw [hdiv]; simp
  obtain ⟨s1, s2⟩ := same_meanVar ae emv wmv
  obtain ⟨-, hsk, hku⟩ := exp_moments hlam
  have hkk := (hku.ae ae).unique hk
  obtain ⟨_, h1, rfl⟩ := Weibull.new_ok.1 hw
  refine ⟨SameOn.of ec wc Ioi_subset_Ici_self (subset_univ _) fun t _ => ce t,
    SameOn.of ep wp Ioi_subset_Ici_self (fun t ht => ne_of_gt ht) fun t ht => pe t (ne_of_gt ht),
    s1, s2, same_skew ae es ws, ⟨6, Is.num 6, ?_⟩, ⟨1 / lam * Real.log 2, ?_, ?_⟩, same_entropy ae ee we, ?_⟩
  · rw [← hkk] at wk; exact wk.congr (by norm_num)
  · obtain ⟨_, rfl⟩ := Exponential.new_ok.1 h
    have hlam' := hlam.ne'
    unfold Exponential.median Exponential.mean; fev
  · unfold Weibull.median
    have : (0:ℝ) < Real.log 2 := Real.log_pos one_lt_two
    refine Is.congr (r := 1 / lam * Real.log 2 ^ (1 / (1:ℝ))) (by fev) (by simp)
  · rw [emo]
    unfold Weibull.modes
    rw [if_pos h1]
    exact List.Forall₂.cons ⟨0, Is.zero, Is.zero⟩ .nil

/-- C237: `ChiSq(2)` and `Exponential(1/2)`: cdf and pdf on (0, ∞), mean, variance, skewness, entropy, mode. -/
theorem C237_exponential_chisq (h : Exponential.new l = .ok e) (hl : l.Is (1 / 2)) {c : ChiSq} (hc : ChiSq.new 2 = .ok c) (pr : Profile) :
    SameOn (Ioi 0) (fun x => (e.cdf x).val) (fun x => (c.cdf x).val) ∧ SameOn (Ioi 0) e.pdf c.pdf ∧
    SameVal e.mean c.mean ∧ (∃ v, c.variance pr = .ok v ∧ SameVal e.variance v) ∧ SameVal e.skewness c.skewness ∧
    SameVal e.excessKurtosis c.excessKurtosis ∧ SameVal e.shannonEntropy c.shannonEntropy ∧
    ∃ ms, c.modes pr = .ok ms ∧ SameList e.modes ms := by
  have pe : ∀ x, expPDF (1 / 2) x = gammaPDFReal ((2:ℕ) / 2) (1 / 2) x := fun x => by
    unfold expPDF gammaPDFReal; norm_num
  have ae : expPDF (1 / 2) =ᵐ[volume] gammaPDFReal ((2:ℕ) / 2) (1 / 2) := Filter.Eventually.of_forall pe
  obtain ⟨-, ec, ep, -, ed, -, emv, es, -, ee, ⟨emo, -⟩, -⟩ := C61_exponential h hl
  have hmo : ∃ ms, c.modes pr = .ok ms ∧ SameList e.modes ms := by
    obtain ⟨_, rfl⟩ := ChiSq.new_ok.1 hc
    refine ⟨[F64.ofNat 0], rfl, ?_⟩
    rw [emo]; exact List.Forall₂.cons ⟨0, Is.zero, (Is.ofNat 0).congr (by simp)⟩ .nil
  obtain ⟨-, cp, cd, cmv, cs, ⟨κ, -, ck, hk⟩, ce, -⟩ := C93_chisq_partial hc
  have cc := C132_chisq_cdf_partial hc (Or.inl rfl)
  have hF : expCDF (1 / 2) = gammaCDF ((2:ℕ) / 2) (1 / 2) := by
    have : gammaPDFReal ((2:ℕ) / 2) (1 / 2) = expPDF (1 / 2) := funext fun x => (pe x).symm
    rw [this] at cd; exact ed.unique cd
  obtain ⟨m, v, y, c1, c2, c3, c4⟩ := cmv pr (by norm_num)
  obtain ⟨s1, s2⟩ := same_meanVar ae emv ⟨m, v, c1, c3, c4⟩
  have hkk := ((exp_moments (by norm_num : (0:ℝ) < 1 / 2)).2.2.ae ae).unique hk
  refine ⟨SameOn.of ec cc Ioi_subset_Ici_self subset_rfl fun t _ => by rw [hF], SameOn.of ep cp Ioi_subset_Ici_self subset_rfl fun t _ => pe t,
    s1, ⟨y, c2, s2⟩, same_skew ae es cs, ⟨6, Is.num 6, ?_⟩, same_entropy ae ee ce, hmo⟩
  rw [← hkk] at ck; exact ck.congr (by norm_num)
end

/-! ### the Rayleigh law -/
section
variable [FP] [FP.Exact] {s : F64} {r : ℝ} {d : Rayleigh}

/-- C238: `Rayleigh(σ)` and `Weibull(σ√2, 2)`: pdf on (0, ∞), mean, variance, skewness, median, entropy; the cdfs agree exactly when
σ = 1 (C75: Rayleigh's cdf ignores σ). -/
theorem C238_rayleigh_weibull_partial (h : Rayleigh.new s = .ok d) (hs : s.Is r) {a b : F64} {w : Weibull} (ha : a.Is (r * Real.sqrt 2))
    (hb : b.Is 2) (hw : Weibull.new a b = .ok w) :
    SameOn (Ioi 0) d.pdf w.pdf ∧ SameVal d.mean w.mean ∧ SameVal d.variance w.variance ∧ SameVal d.skewness w.skewness ∧
    SameVal d.median w.median ∧ SameVal d.shannonEntropy w.shannonEntropy := by
  obtain ⟨hr, dp, -, dd, dmv, dsk, ⟨m, dm1, dm2⟩, -, de⟩ := C75_rayleigh_partial h hs
  obtain ⟨hl, -, wc, wp, -, wd, wmv, ws, -, ⟨wm, wm1, wm2⟩, we⟩ := C70_weibull hw ha hb
  have h2 : (0:ℝ) < Real.sqrt 2 := Real.sqrt_pos.2 two_pos
  have hsq : Real.sqrt 2 ^ 2 = 2 := Real.sq_sqrt (by norm_num)
  have pe : ∀ x, rayleighPDF r x = weibullPDF (r * Real.sqrt 2) 2 x := fun x => by
    unfold rayleighPDF weibullPDF; split_ifs with hx
    · rfl
    · have : (x / (r * Real.sqrt 2)) ^ (2:ℝ) = x ^ 2 / (2 * r ^ 2) := by
        rw [show (2:ℝ) = ((2:ℕ):ℝ) by norm_num, Real.rpow_natCast, div_pow, mul_pow, Nat.cast_ofNat, hsq]; ring
      rw [this, show (2:ℝ) - 1 = 1 by norm_num, Real.rpow_one, neg_div]
      congr 1
      rw [div_mul_div_comm, show r * Real.sqrt 2 * (r * Real.sqrt 2) = r ^ 2 * Real.sqrt 2 ^ 2 by ring, hsq]
      field_simp
  have ae : rayleighPDF r =ᵐ[volume] weibullPDF (r * Real.sqrt 2) 2 := Filter.Eventually.of_forall pe
  have hF : rayleighCDF r = weibullCDF (r * Real.sqrt 2) 2 := by
    rw [show weibullPDF (r * Real.sqrt 2) 2 = rayleighPDF r from funext fun x => (pe x).symm] at wd
    exact dd.unique wd
  obtain ⟨s1, s2⟩ := same_meanVar ae dmv wmv
  refine ⟨SameOn.of dp wp Ioi_subset_Ici_self (fun t ht => ne_of_gt ht) fun t ht => pe t, s1, s2, same_skew ae dsk ws, ?_, same_entropy ae de we⟩
  have hpos : ∀ x, weibullCDF (r * Real.sqrt 2) 2 x = 1 / 2 → 0 < x := fun x hx => by
    by_contra hc
    rw [weibullCDF, if_pos (not_lt.1 hc)] at hx; norm_num at hx
  have hinj : ∀ x y, 0 < x → 0 < y → weibullCDF (r * Real.sqrt 2) 2 x = weibullCDF (r * Real.sqrt 2) 2 y → x = y := fun x y hx hy hxy => by
    rw [weibullCDF, weibullCDF, if_neg (not_le.2 hx), if_neg (not_le.2 hy)] at hxy
    have : (x / (r * Real.sqrt 2)) ^ (2:ℝ) = (y / (r * Real.sqrt 2)) ^ (2:ℝ) := by
      have := Real.exp_injective (sub_right_injective hxy); linarith
    have h3 := (Real.rpow_left_inj (by positivity) (by positivity) two_ne_zero).1 this
    exact (div_left_inj' hl.ne').1 h3
  rw [hF] at dm2
  obtain rfl := hinj _ _ (hpos _ dm2) (hpos _ wm2) (dm2.trans wm2.symm)
  exact ⟨_, dm1, wm1⟩

/-- C238 (violated): the cdfs of `Rayleigh(σ)` and `Weibull(σ√2, 2)` agree exactly when σ = 1. -/
theorem C238_rayleigh_weibull_cdf_violated (h : Rayleigh.new s = .ok d) (hs : s.Is r) {a b : F64} {w : Weibull}
    (ha : a.Is (r * Real.sqrt 2)) (hb : b.Is 2) (hw : Weibull.new a b = .ok w) :
    SameOn (Ioi 0) (fun x => (d.cdf x).val) (fun x => (w.cdf x).val) ↔ r = 1 := by
  obtain ⟨hr, -, -, dd, -⟩ := C75_rayleigh_partial h hs
  obtain ⟨c1, c2, -⟩ := C75_rayleigh_cdf_kurtosis_violated h hs
  obtain ⟨hl, -, wc, -⟩ := C70_weibull hw ha hb
  have hsq : Real.sqrt 2 ^ 2 = 2 := Real.sq_sqrt (by norm_num)
  have hF : ∀ x, weibullCDF (r * Real.sqrt 2) 2 x = rayleighCDF r x := fun x => by
    unfold rayleighCDF weibullCDF; split_ifs with hx
    · rfl
    · rw [show (2:ℝ) = ((2:ℕ):ℝ) by norm_num, Real.rpow_natCast, div_pow, mul_pow, Nat.cast_ofNat, hsq, neg_div]
      congr 3; ring
  constructor
  · intro hh
    obtain ⟨u, h1, h2⟩ := hh (fin 1) 1 (mem_Ioi.2 one_pos) (Is.fin 1)
    have e1 := h1.eq (c1 (fin 1) 1 (mem_Ici.2 zero_le_one) (Is.fin 1))
    have e2 := h2.eq (wc (fin 1) 1 (mem_univ _) (Is.fin 1))
    rw [hF] at e2
    have e := e1.symm.trans e2
    rw [rayleighCDF, rayleighCDF, if_neg (by norm_num), if_neg (by norm_num)] at e
    have e3 := Real.exp_injective (sub_right_injective e)
    have : r ^ 2 = 1 := by field_simp at e3; nlinarith
    nlinarith
  · rintro rfl
    exact SameOn.of c1 wc Ioi_subset_Ici_self (subset_univ _) fun t _ => (hF t).symm

/-- C238: `Chi(2)` and `Rayleigh(1)`: cdf and pdf on (0, ∞), mean, variance, skewness. -/
theorem C238_rayleigh_chi_partial (h : Rayleigh.new s = .ok d) (hs : s.Is 1) {c : Chi} (hc : Chi.new 2 = .ok c) :
    SameOn (Ioi 0) (fun x => (d.cdf x).val) (fun x => (c.cdf x).val) ∧ SameOn (Ioi 0) d.pdf c.pdf ∧
    SameVal d.mean c.mean ∧ SameVal d.variance c.variance ∧ SameVal d.skewness c.skewness ∧ SameList d.modes c.modes := by
  obtain ⟨-, dp, -, dd, dmv, dsk, -, ⟨y, x, dm, dy, dmo⟩, -⟩ := C75_rayleigh_partial h hs
  obtain ⟨dc, -⟩ := C75_rayleigh_cdf_kurtosis_violated h hs
  obtain ⟨-, cp, cc, -, cd, cmv, csk, -, cm, -⟩ := C134_chi hc
  have pe : ∀ x, rayleighPDF 1 x = chiPDF (2:ℕ) x := fun x => by
    unfold rayleighPDF chiPDF; split_ifs with hx
    · rfl
    · norm_num
  have ae : rayleighPDF 1 =ᵐ[volume] chiPDF (2:ℕ) := Filter.Eventually.of_forall pe
  have hF : rayleighCDF 1 = chiCDF (2:ℕ) := by
    rw [show chiPDF (2:ℕ) = rayleighPDF 1 from funext fun x => (pe x).symm] at cd
    exact dd.unique cd
  obtain ⟨s1, s2⟩ := same_meanVar ae dmv cmv
  refine ⟨SameOn.of dc cc Ioi_subset_Ici_self subset_rfl fun t _ => by rw [hF], SameOn.of dp cp Ioi_subset_Ici_self subset_rfl fun t _ => pe t,
    s1, s2, same_skew ae dsk csk, ?_⟩
  obtain ⟨_, rfl⟩ := Rayleigh.new_ok.1 h
  obtain ⟨_, rfl⟩ := Chi.new_ok.1 hc
  unfold Rayleigh.modes Chi.modes
  rw [if_pos (by norm_num)]
  exact List.Forall₂.cons ⟨1, hs, ((Is.ofNat 1).sqrt (by norm_num)).congr (by simp)⟩ .nil
end

section
attribute [local instance] exactFP exactFP_exact
theorem lt_fin {r : ℝ} (h : 0 < r) : (0 : F64) < fin r := lt_of_pos h (Is.fin r)
example : SameVal (Exponential.mean ⟨fin 3⟩) (Gamma.mean ⟨fin 1, fin 3⟩) :=
  (C237_exponential_gamma (Exponential.new_ok.2 ⟨lt_fin (by norm_num), rfl⟩) (Is.fin 3) (Is.fin 1)
    (Gamma.new_ok.2 ⟨lt_fin one_pos, lt_fin (by norm_num), rfl⟩)).2.2.1
example : SameVal (Exponential.mean ⟨fin 3⟩) (Erlang.mean ⟨1, fin 3⟩) :=
  (C237_exponential_erlang (Exponential.new_ok.2 ⟨lt_fin (by norm_num), rfl⟩) (Is.fin 3)
    (Erlang.new_ok.2 ⟨one_pos, lt_fin (by norm_num), rfl⟩) .debug).2.1
example : SameVal (Exponential.variance ⟨fin 3⟩) (Weibull.variance ⟨fin (1 / 3), fin 1⟩) :=
  (C237_exponential_weibull (Exponential.new_ok.2 ⟨lt_fin (by norm_num), rfl⟩) (Is.fin 3) (Is.fin _) (Is.fin 1)
    (Weibull.new_ok.2 ⟨lt_fin (by norm_num), lt_fin one_pos, rfl⟩)).2.2.2.1
example : SameVal (Exponential.mean ⟨fin (1 / 2)⟩) (ChiSq.mean ⟨2⟩) :=
  (C237_exponential_chisq (Exponential.new_ok.2 ⟨lt_fin (by norm_num), rfl⟩) (Is.fin _) (chisq_ex 2 two_pos) .release).2.2.1
example : ¬ SameOn (Ioi 0) (fun x => (Rayleigh.cdf ⟨fin 3⟩ x).val) (fun x => (Weibull.cdf ⟨fin (3 * Real.sqrt 2), fin 2⟩ x).val) := fun h => by
  have := (C238_rayleigh_weibull_cdf_violated (Rayleigh.new_ok.2 ⟨lt_fin (by norm_num), rfl⟩) (Is.fin 3) (Is.fin _) (Is.fin 2)
    (Weibull.new_ok.2 ⟨lt_fin (by positivity), lt_fin two_pos, rfl⟩)).1 h
  norm_num at this
example : SameVal (Rayleigh.mean ⟨fin 3⟩) (Weibull.mean ⟨fin (3 * Real.sqrt 2), fin 2⟩) :=
  (C238_rayleigh_weibull_partial (Rayleigh.new_ok.2 ⟨lt_fin (by norm_num), rfl⟩) (Is.fin 3) (Is.fin _) (Is.fin 2)
    (Weibull.new_ok.2 ⟨lt_fin (by positivity), lt_fin two_pos, rfl⟩)).2.1
example : SameVal (Rayleigh.mean ⟨fin 1⟩) (Chi.mean ⟨2⟩) :=
  (C238_rayleigh_chi_partial (Rayleigh.new_ok.2 ⟨lt_fin one_pos, rfl⟩) (Is.fin 1) (chi_ex 2 two_pos)).2.2.1
end
end Rstat
