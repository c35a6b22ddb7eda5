import Verif.Model.Dist.Uniform
import Verif.Lemmas.Dist.Uniform
import Verif.Lemmas.DistBase

/-! Properties C53–C55: the uniform laws. -/
set_option linter.unusedSectionVars false
namespace Rstat
open F64 Consts Spec MeasureTheory Set

theorem UniformF.new_ok [FP] {a b : F64} {d : UniformF} : UniformF.new a b = .ok d ↔ 0 < b ∧ d = ⟨a, b, 1 / b⟩ := by
  simp only [UniformF.new, exc_bind_ok, Loc.new_ok, Scale.new_ok]
  constructor
  · rintro ⟨_, rfl, _, ⟨h0, rfl⟩, h⟩; exact ⟨h0, by cases h; rfl⟩
  · rintro ⟨h0, rfl⟩; exact ⟨_, rfl, _, ⟨h0, rfl⟩, rfl⟩

section
variable [FP] [FP.Exact] {a b : F64} {l w : ℝ} {d : UniformF}

/-- C53: the continuous uniform law. -/
theorem C53_uniform (h : UniformF.new a b = .ok d) (ha : a.Is l) (hb : b.Is w) :
    0 < w ∧
    d.support.1.Is l ∧ d.support.2.Is (l + w) ∧
    Computes (fun x => (d.cdf x).val) (uniformCDF l (l + w)) univ ∧
    d.cdf .ninf = ⟨0⟩ ∧ d.cdf .pinf = ⟨1⟩ ∧
    Computes d.pdf (uniformPDF l (l + w)) univ ∧
    IsCDF (uniformCDF l (l + w)) ∧ IsDensityOf (uniformPDF l (l + w)) (uniformCDF l (l + w)) ∧
    (∃ m v, d.mean.Is m ∧ d.variance.Is v ∧ HasMeanVar (uniformPDF l (l + w)) m v) ∧
    (∃ s, d.skewness.Is s ∧ HasSkew (uniformPDF l (l + w)) s) ∧
    (∃ κ, d.kurtosis.Is κ ∧ d.excessKurtosis.Is (κ - 3) ∧ HasKurt (uniformPDF l (l + w)) κ) ∧
    (∃ e, d.shannonEntropy.Is e ∧ HasEntropy (uniformPDF l (l + w)) e) ∧
    (∃ x, d.median.Is x ∧ uniformCDF l (l + w) x = 1 / 2) ∧
    (∀ (q : F64) (p : ℝ), 0 ≤ p → p ≤ 1 → q.Is p →
      ∃ x, (d.quantile ⟨q⟩).Is x ∧ uniformCDF l (l + w) x = p ∧ (0 < p → IsQuantile (uniformCDF l (l + w)) p x)) := by
  obtain ⟨h0, rfl⟩ := UniformF.new_ok.1 h
  have hw : 0 < w := pos_of_lt h0 hb
  have hub : (a + b).Is (l + w) := ha.add hb
  have hpr : (1 / b : F64).Is (1 / w) := by fev
  obtain ⟨hF, hD⟩ := uniform_density (a := l) hw
  obtain ⟨hmv, hs3, hk4, hent⟩ := uniform_moments l hw
  have hval : ∀ p : ℝ, 0 ≤ p → p ≤ 1 → uniformCDF l (l + w) (l + p * w) = p := by
    intro p hp hp1
    rw [uniformCDF_locScale hw]
    have : (l + p * w - l) / w = p := by field_simp; ring
    rw [this]; unfold uniformCDF
    rw [if_neg (not_lt.2 hp)]
    split_ifs with h1
    · exact le_antisymm h1 hp1
    · simp
  refine ⟨hw, ha, hub, ?_, ?_, ?_, ?_, hF, hD, ⟨_, _, ?_, ?_, hmv⟩, ⟨0, Is.zero, _, _, by positivity, hmv, ?_⟩,
    ⟨_, NINE_FIFTHS_is, ?_, _, _, by positivity, hmv, ?_⟩, ⟨_, ?_, hent⟩, ⟨l + 1 / 2 * w, ?_, hval _ (by norm_num) (by norm_num)⟩, ?_⟩
  · intro x t _ hx
    unfold UniformF.cdf uniformCDF
    dsimp only
    simp only [hx.lt_iff ha, hub.le_iff hx]
    split_ifs
    · exact Is.zero
    · exact Is.one
    · refine Is.congr (r := (t - l) * (1 / w)) (by unfold Probability.newUnchecked; fev) ?_
      rw [add_sub_cancel_left]; ring
  · unfold UniformF.cdf
    dsimp only
    rw [if_pos (ninf_lt ha)]; rfl
  · unfold UniformF.cdf
    dsimp only
    rw [if_neg not_pinf_lt, if_pos (le_pinf hub)]; rfl
  · intro x t _ hx
    unfold UniformF.pdf uniformPDF
    dsimp only
    simp only [hx.lt_iff ha, hub.lt_iff hx]
    have : (l ≤ t ∧ t ≤ l + w) ↔ ¬ (t < l ∨ l + w < t) := by push Not; rfl
    simp only [this, ite_not]
    split_ifs
    · exact Is.zero
    · rw [add_sub_cancel_left]; exact hpr
  · unfold UniformF.mean; fev
  · unfold UniformF.variance; refine Is.congr (r := w * w / 12) (by fev) (by ring)
  · rw [zero_mul]; exact hs3
  · unfold UniformF.excessKurtosis; refine Is.congr (r := -(6 / 5)) (by fev) (by norm_num)
  · exact hk4
  · unfold UniformF.shannonEntropy; fev
  · unfold UniformF.median; refine Is.congr (r := l + w / 2) (by fev) (by ring)
  · intro q p hp hp1 hq
    refine ⟨l + p * w, ?_, hval p hp hp1, fun hp0 => isQuantile_of (hval p hp hp1) fun y hy => ?_⟩
    · unfold UniformF.quantile; fev
    · rw [uniformCDF_locScale hw]
      have : (y - l) / w < p := by rw [div_lt_iff₀ hw]; linarith
      unfold uniformCDF
      rw [sub_zero, sub_zero, div_one, if_neg (show ¬ 1 ≤ (y - l) / w by linarith)]
      split_ifs <;> linarith

/-- C53: exactly the positive widths are accepted; zero, negative and NaN widths are refused. -/
theorem C53_uniform_domain (a b : F64) : (∃ d, UniformF.new a b = .ok d) ↔ 0 < b :=
  ⟨fun ⟨_, h⟩ => (UniformF.new_ok.1 h).1, fun h => ⟨_, UniformF.new_ok.2 ⟨h, rfl⟩⟩⟩

end

section
attribute [local instance] exactFP exactFP_exact
example : ∃ d, UniformF.new (fin (-1)) (fin 4) = .ok d ∧ d.mean.Is 1 := by
  refine ⟨_, UniformF.new_ok.2 ⟨fin_lt_fin.2 (by norm_num), rfl⟩, ?_⟩
  unfold UniformF.mean
  refine Is.congr (r := -1 + 4 / 2) (by fev) (by norm_num)
end

/-! ### discrete -/

theorem i64wrap_eq {n : ℤ} (h : I64MIN ≤ n ∧ n ≤ I64MAX) : i64wrap n = n := by
  unfold i64wrap I64MIN I64MAX at *; omega
theorem i64chk_ok {pr : Profile} {n : ℤ} (h : I64MIN ≤ n ∧ n ≤ I64MAX) : i64chk pr n = .ok n := if_pos h

namespace UniformI
/-- the whole interval, and the cardinality, are representable -/
def Fits (lb : ℤ) (width : ℕ) : Prop := -2 ^ 63 ≤ lb ∧ lb + width ≤ 2 ^ 63 - 1 ∧ (width : ℤ) < 2 ^ 63 - 1

theorem Fits.bounds {lb : ℤ} {w : ℕ} (h : Fits lb w) : I64MIN ≤ lb ∧ lb + w ≤ I64MAX ∧ (w : ℤ) < I64MAX := h

theorem new_ok [FP] {pr : Profile} {lb : ℤ} {w : ℕ} {d : UniformI} (hf : Fits lb w) :
    UniformI.new pr lb w = .ok (.ok d) ↔ 0 < w ∧ d = ⟨lb, w, 1 / F64.ofInt ((w : ℤ) + 1)⟩ := by
  obtain ⟨h1, h2, h3⟩ := UniformI.Fits.bounds hf
  have hw : i64wrap w = w := i64wrap_eq ⟨by unfold I64MIN; omega, h3.le⟩
  unfold UniformI.new
  rw [hw]
  have hc : i64chk pr ((w : ℤ) + 1) = .ok ((w : ℤ) + 1) := i64chk_ok ⟨by unfold I64MIN; omega, by omega⟩
  rcases hs : Scale.newI (w : ℤ) with e | y
  · constructor
    · intro h; simp at h
    · rintro ⟨h, rfl⟩
      rw [(Scale.newI_ok (w : ℤ) w).2 ⟨by exact_mod_cast h, rfl⟩] at hs; cases hs
  · obtain ⟨h0, rfl⟩ := (Scale.newI_ok _ _).1 hs
    simp only [hc]
    constructor
    · intro h; cases h; exact ⟨by exact_mod_cast h0, rfl⟩
    · rintro ⟨_, rfl⟩; rfl
end UniformI

section
variable [FP] [FP.Exact] {pr : Profile} {lb : ℤ} {w : ℕ} {d : UniformI}

/-- C54: the discrete uniform law, whenever the interval `lb ..= lb + width` and its cardinality fit in i64 (for the
rest see `C54_uniform_int_overflow_violated`). -/
theorem C54_uniform_int_partial (hf : UniformI.Fits lb w) (h : UniformI.new pr lb w = .ok (.ok d)) :
    d.support pr = .ok (lb, lb + w) ∧
    IsPMF (uniformPMF lb (lb + w)) ∧
    (∀ k, ∃ p, d.pmf pr k = .ok p ∧ p.val.Is (uniformPMF lb (lb + w) k)) ∧
    (∃ F : ℤ → ℝ, IsCDFOfPMF (uniformPMF lb (lb + w)) F ∧ ∀ k, ∃ p, d.cdf pr k = .ok p ∧ p.val.Is (F k)) ∧
    (∃ m v, d.mean.Is m ∧ Returns (d.variance pr) v ∧
      HasMeanVarD (uniformPMF lb (lb + w)) (fun k => (k : ℝ)) m v) ∧
    (∃ s, d.skewness.Is s ∧ HasSkewD (uniformPMF lb (lb + w)) (fun k => (k : ℝ)) s) ∧
    (∃ κ, Returns (d.excessKurtosis pr) (κ - 3) ∧ HasKurtD (uniformPMF lb (lb + w)) (fun k => (k : ℝ)) κ) ∧
    (∃ e, Returns (d.shannonEntropy pr) e ∧ HasEntropyD (uniformPMF lb (lb + w)) e) ∧
    (∃ m, d.median.Is m ∧ IsMedianD (uniformPMF lb (lb + w)) (fun k => (k : ℝ)) m) := by
  obtain ⟨hw, rfl⟩ := (UniformI.new_ok hf).1 h
  obtain ⟨h1, h2, h3⟩ := UniformI.Fits.bounds hf
  have hub : i64chk pr (lb + w) = .ok (lb + w) := i64chk_ok ⟨by omega, h2⟩
  have hw1 : i64chk pr ((w : ℤ) + 1) = .ok ((w : ℤ) + 1) := i64chk_ok ⟨by unfold I64MIN; omega, by omega⟩
  have hpr : (1 / F64.ofInt ((w : ℤ) + 1)).Is (1 / ((w : ℝ) + 1)) := by
    refine Is.div Is.one ((Is.ofInt _).congr (by push_cast; rfl)) (by positivity)
  obtain ⟨hmv, hsk, hku, hen⟩ := uniformD_moments lb w hw
  have hspan : UniformI.span pr ⟨lb, w, 1 / F64.ofInt ((w : ℤ) + 1)⟩ = .ok (w + 1) := by
    unfold UniformI.span
    rw [hw1, exc_ok_bind]
    refine congrArg Except.ok ?_
    unfold I64MAX at h3; omega
  have hn : (F64.ofNat (w + 1)).Is ((w : ℝ) + 1) := (Is.ofNat _).congr (by push_cast; rfl)
  have hn2 : ((w : ℝ) + 1) ^ 2 - 1 ≠ 0 := by
    have : ((w : ℝ) + 1) ^ 2 - 1 = w ^ 2 + 2 * w := by ring
    have : (0 : ℝ) < w := by exact_mod_cast hw
    rw [‹((w : ℝ) + 1) ^ 2 - 1 = _›]; positivity
  refine ⟨by unfold UniformI.support; simp only [hub]; rfl, uniformD_pmf lb w, fun k => ?_,
    ⟨_, uniformD_cdf lb w, fun k => ?_⟩, ⟨_, _, ?_, ⟨_, by unfold UniformI.variance; simp only [hspan]; rfl, ?_⟩, hmv⟩,
    ⟨0, Is.zero, hsk⟩, ⟨_, ⟨_, by unfold UniformI.excessKurtosis; simp only [hspan]; rfl, ?_⟩, hku⟩,
    ⟨_, ⟨_, by unfold UniformI.shannonEntropy; simp only [hw1]; rfl, ?_⟩, hen⟩, ⟨_, ?_, uniformD_median lb w⟩⟩
  · unfold UniformI.pmf
    simp only [hub]
    unfold uniformPMF
    have : (lb ≤ k ∧ k ≤ lb + w) ↔ ¬ (k < lb ∨ lb + w < k) := by push Not; rfl
    simp only [this, ite_not]
    by_cases hk : k < lb ∨ lb + w < k
    · exact ⟨_, if_pos hk, by rw [if_pos hk]; exact Is.zero⟩
    · refine ⟨_, if_neg hk, ?_⟩
      rw [if_neg hk]; refine Is.congr (r := 1 / ((w : ℝ) + 1)) hpr ?_
      push_cast; rw [add_sub_cancel_left]
  · unfold UniformI.cdf
    simp only [hub]
    by_cases hk : k < lb
    · exact ⟨_, if_pos hk, by rw [if_pos hk]; exact Is.zero⟩
    · by_cases hk2 : lb + w ≤ k
      · exact ⟨_, (if_neg hk).trans (if_pos hk2), by rw [if_neg hk, if_pos hk2]; exact Is.one⟩
      · have c1 : i64chk pr (k - lb) = .ok (k - lb) := i64chk_ok ⟨by unfold I64MIN; omega, by omega⟩
        have c2 : i64chk pr (k - lb + 1) = .ok (k - lb + 1) := i64chk_ok ⟨by unfold I64MIN; omega, by omega⟩
        refine ⟨Probability.newUnchecked (F64.ofInt (k - lb + 1) * (1 / F64.ofInt ((w : ℤ) + 1))), ?_, ?_⟩
        · refine (if_neg hk).trans ((if_neg hk2).trans ?_)
          simp only [c1]
          show (do let b ← i64chk pr (k - lb + 1); _) = _
          simp only [c2]; rfl
        · rw [if_neg hk, if_neg hk2]
          refine Is.congr (r := ((k - lb + 1 : ℤ) : ℝ) * (1 / ((w : ℝ) + 1))) ((Is.ofInt _).mul hpr) ?_
          push_cast; ring
  · unfold UniformI.mean
    refine Is.congr (r := (lb : ℝ) + ((w : ℤ) : ℝ) / 2) (by fev) (by push_cast; rfl)
  · refine Is.congr (r := ((((w : ℝ) + 1) * ((w : ℝ) + 1)) - 1) / 12) (by fev) (by ring)
  · refine Is.congr (r := -(6 / 5) * ((((w : ℝ) + 1) * ((w : ℝ) + 1)) + 1) / ((((w : ℝ) + 1) * ((w : ℝ) + 1)) - 1))
      ?_ (by ring)
    have : ((w : ℝ) + 1) * ((w : ℝ) + 1) - 1 ≠ 0 := by rw [← sq]; exact hn2
    fev
  · refine Is.ln ((Is.ofInt _).congr (by push_cast; rfl)) (by positivity)
  · unfold UniformI.median
    refine Is.congr (r := (lb : ℝ) + ((w : ℤ) : ℝ) / 2) (by fev) (by push_cast; rfl)

/-- C54 (violated at the edge): with `width = i64::MAX` construction panics in debug builds and in release builds
produces a distribution of negative probability whose entropy is NaN (its variance is still the right one); with
`lb + width > i64::MAX` every query of the support, the mass or the distribution function panics in debug builds, and
in release builds every mass is zero and the distribution function is the unit step at `lb`. -/
theorem C54_uniform_int_overflow_violated (lb : ℤ) :
    UniformI.new .debug lb (2 ^ 63 - 1) = .error .overflow ∧
    (∃ d, UniformI.new .release lb (2 ^ 63 - 1) = .ok (.ok d) ∧ d.prob < 0 ∧ d.shannonEntropy .release = .ok nan ∧
      Returns (d.variance .release) (((2 ^ 63 : ℝ) ^ 2 - 1) / 12)) ∧
    (∀ (d : UniformI) (k : ℤ), 2 ^ 63 - 1 < d.lb + d.width →
      d.support .debug = .error .overflow ∧ d.cdf .debug k = .error .overflow ∧ d.pmf .debug k = .error .overflow) ∧
    (∀ (d : UniformI) (k : ℤ), d.lb ≤ 2 ^ 63 - 1 → d.width ≤ 2 ^ 63 - 1 → 2 ^ 63 - 1 < d.lb + d.width →
      d.pmf .release k = .ok Probability.zero ∧
      d.cdf .release k = .ok (if k < d.lb then Probability.zero else Probability.one)) := by
  have hw : i64wrap ((2 ^ 63 - 1 : ℕ) : ℤ) = 2 ^ 63 - 1 := by unfold i64wrap; norm_num
  have hs : Scale.newI (2 ^ 63 - 1 : ℤ) = .ok (2 ^ 63 - 1) := (Scale.newI_ok _ _).2 ⟨by norm_num, rfl⟩
  have hn : ¬ (I64MIN ≤ (2 ^ 63 - 1 + 1 : ℤ) ∧ (2 ^ 63 - 1 + 1 : ℤ) ≤ I64MAX) := by unfold I64MIN I64MAX; norm_num
  have hwr : i64wrap (2 ^ 63 - 1 + 1) = -2 ^ 63 := by unfold i64wrap; norm_num
  refine ⟨?_, ⟨⟨lb, 2 ^ 63 - 1, 1 / F64.ofInt (-2 ^ 63)⟩, ?_, ?_, ?_, ?_⟩, fun d k hk => ?_, fun d k h1 h2 h3 => ?_⟩
  · unfold UniformI.new; rw [hw, hs]; simp only [i64chk, if_neg hn]; rfl
  · unfold UniformI.new; rw [hw, hs]; simp only [i64chk, if_neg hn, exc_ok_bind]
    have : i64wrap (2 ^ 63 - 1 + 1) = -2 ^ 63 := by unfold i64wrap; norm_num
    rw [this]
  · have : (1 / F64.ofInt (-2 ^ 63)).Is (1 / ((-2 ^ 63 : ℤ) : ℝ)) := Is.div Is.one (Is.ofInt _) (by norm_num)
    exact (this.lt_iff Is.zero).2 (by norm_num)
  · unfold UniformI.shannonEntropy
    simp only [i64chk, if_neg hn, exc_ok_bind, hwr]
    exact congrArg Except.ok (ln_neg_nan (Is.ofInt _) (by norm_num))
  · refine ⟨_, by unfold UniformI.variance UniformI.span; simp only [i64chk, if_neg hn, exc_ok_bind, hwr]; rfl, ?_⟩
    have e : ((-2 ^ 63 : ℤ) % 2 ^ 64).toNat = 2 ^ 63 := by norm_num; rfl
    rw [e]
    have hN : (F64.ofNat (2 ^ 63)).Is (2 ^ 63) := (Is.ofNat _).congr (by norm_num)
    generalize F64.ofNat (2 ^ 63) = N at hN
    generalize (2 ^ 63 : ℝ) = q at hN
    exact Is.congr (r := (q * q - 1) / 12) (by fev) (by rw [sq])
  · have : ¬ (I64MIN ≤ d.lb + d.width ∧ d.lb + d.width ≤ I64MAX) := by unfold I64MAX; omega
    unfold UniformI.support UniformI.cdf UniformI.pmf
    simp only [i64chk, if_neg this]
    exact ⟨rfl, rfl, rfl⟩
  · have hov : ¬ (I64MIN ≤ d.lb + d.width ∧ d.lb + d.width ≤ I64MAX) := by unfold I64MAX; omega
    have hub : i64wrap (d.lb + d.width) < d.lb := by unfold i64wrap; omega
    unfold UniformI.pmf UniformI.cdf
    simp only [i64chk, if_neg hov, exc_ok_bind]
    refine ⟨if_pos (by omega), ?_⟩
    by_cases hk : k < d.lb
    · rw [if_pos hk, if_pos hk]
    · rw [if_neg hk, if_neg hk, if_pos (by omega)]

/-- C55 (violated): for every discrete uniform law, `quantile(1)` lies outside the support, one above the largest value. -/
theorem C55_uniform_int_quantile_violated (hf : UniformI.Fits lb w) (h : UniformI.new pr lb w = .ok (.ok d)) :
    ∃ x, d.quantile pr ⟨1⟩ = .ok x ∧ x.Is (lb + w + 1 : ℤ) := by
  obtain ⟨hw, rfl⟩ := (UniformI.new_ok hf).1 h
  obtain ⟨h1, h2, h3⟩ := UniformI.Fits.bounds hf
  have hw1 : i64chk pr ((w : ℤ) + 1) = .ok ((w : ℤ) + 1) := i64chk_ok ⟨by unfold I64MIN; omega, by omega⟩
  have hspan : UniformI.span pr ⟨lb, w, 1 / F64.ofInt ((w : ℤ) + 1)⟩ = .ok (w + 1) := by
    unfold UniformI.span
    rw [hw1, exc_ok_bind]
    refine congrArg Except.ok ?_
    unfold I64MAX at h3; omega
  refine ⟨_, by unfold UniformI.quantile; simp only [hspan]; rfl, ?_⟩
  refine Is.congr (r := (lb : ℝ) + ⌊(1 : ℝ) * ((w + 1 : ℕ) : ℝ)⌋) (by fev) ?_
  rw [one_mul, Int.floor_natCast]; push_cast; ring

/-- C55 (what holds): `quantile(p)` is the least `k` of the support with `p <= cdf(k)` for every `p` in `[0,1]` that is
not a positive multiple of `1/(width+1)`. -/
theorem C55_uniform_int_quantile_partial (hf : UniformI.Fits lb w) (h : UniformI.new pr lb w = .ok (.ok d))
    {q : F64} {p : ℝ} (hq : q.Is p) (hp : 0 ≤ p) (hp1 : p ≤ 1) (hm : ∀ j : ℕ, 0 < j → p * (w + 1) ≠ j) :
    ∃ (x : F64) (k : ℤ), d.quantile pr ⟨q⟩ = .ok x ∧ x.Is k ∧
      IsLeast {j : ℤ | lb ≤ j ∧ j ≤ lb + w ∧ ∃ c r, d.cdf pr j = .ok c ∧ c.val.Is r ∧ p ≤ r} k := by
  obtain ⟨_, _, _, ⟨_, _, hcdf⟩, _⟩ := C54_uniform_int_partial hf h
  obtain ⟨hw, rfl⟩ := (UniformI.new_ok hf).1 h
  have hpmfF := uniformD_cdf lb w
  obtain ⟨h1, h2, h3⟩ := UniformI.Fits.bounds hf
  have hub : i64chk pr (lb + w) = .ok (lb + w) := i64chk_ok ⟨by omega, h2⟩
  have hw1 : i64chk pr ((w : ℤ) + 1) = .ok ((w : ℤ) + 1) := i64chk_ok ⟨by unfold I64MIN; omega, by omega⟩
  have hpr : (1 / F64.ofInt ((w : ℤ) + 1)).Is (1 / ((w : ℝ) + 1)) := by
    refine Is.div Is.one ((Is.ofInt _).congr (by push_cast; rfl)) (by positivity)
  have hwpos : (0 : ℝ) < (w : ℝ) + 1 := by positivity
  have hspan : UniformI.span pr ⟨lb, w, 1 / F64.ofInt ((w : ℤ) + 1)⟩ = .ok (w + 1) := by
    unfold UniformI.span
    rw [hw1, exc_ok_bind]
    refine congrArg Except.ok ?_
    unfold I64MAX at h3; omega
  -- the value of the cdf on the support
  have hc : ∀ j : ℤ, lb ≤ j → j ≤ lb + w → ∃ c, UniformI.cdf pr ⟨lb, w, 1 / F64.ofInt ((w : ℤ) + 1)⟩ j = .ok c ∧
      c.val.Is (((j - lb : ℤ) + 1 : ℝ) / (w + 1)) := by
    intro j hj1 hj2
    unfold UniformI.cdf
    simp only [hub]
    rcases eq_or_lt_of_le hj2 with rfl | hj2
    · refine ⟨_, (if_neg (by omega)).trans (if_pos le_rfl), ?_⟩
      refine Is.congr (r := 1) Is.one ?_
      push_cast; field_simp; ring
    · have c1 : i64chk pr (j - lb) = .ok (j - lb) := i64chk_ok ⟨by unfold I64MIN; omega, by omega⟩
      have c2 : i64chk pr (j - lb + 1) = .ok (j - lb + 1) := i64chk_ok ⟨by unfold I64MIN; omega, by omega⟩
      refine ⟨Probability.newUnchecked (F64.ofInt (j - lb + 1) * (1 / F64.ofInt ((w : ℤ) + 1))), ?_, ?_⟩
      · refine (if_neg (by omega)).trans ((if_neg (by omega)).trans ?_)
        simp only [c1]
        show (do let b ← i64chk pr (j - lb + 1); _) = _
        simp only [c2]; rfl
      · refine Is.congr (r := ((j - lb + 1 : ℤ) : ℝ) * (1 / ((w : ℝ) + 1))) ((Is.ofInt _).mul hpr) ?_
        push_cast; ring
  have hfl0 : 0 ≤ ⌊p * (w + 1)⌋ := Int.floor_nonneg.2 (by positivity)
  have hfl1 : ⌊p * (w + 1)⌋ ≤ w := by
    have : p * (w + 1) < (w + 1 : ℕ) := by
      refine lt_of_le_of_ne ?_ (hm (w + 1) (by omega))
      push_cast; nlinarith
    have := Int.floor_lt.2 (show p * (w + 1) < ((w + 1 : ℤ) : ℝ) by push_cast at this ⊢; exact this)
    omega
  refine ⟨_, lb + ⌊p * (w + 1)⌋, by unfold UniformI.quantile; simp only [hspan]; rfl, ?_, ⟨?_, ?_, ?_⟩, ?_⟩
  · refine Is.congr (r := (lb : ℝ) + ⌊p * ((w + 1 : ℕ) : ℝ)⌋) (by fev) (by push_cast; rfl)
  · omega
  · omega
  · obtain ⟨c, hc1, hc2⟩ := hc (lb + ⌊p * (w + 1)⌋) (by omega) (by omega)
    refine ⟨c, _, hc1, hc2, ?_⟩
    rw [le_div_iff₀ hwpos]
    rw [add_sub_cancel_left]; exact (Int.lt_floor_add_one _).le
  · rintro j ⟨hj1, hj2, c, r, hc1, hc2, hpr'⟩
    obtain ⟨c', hc1', hc2'⟩ := hc j hj1 hj2
    obtain rfl : c = c' := by rw [hc1] at hc1'; cases hc1'; rfl
    obtain rfl := hc2.eq hc2'
    rw [le_div_iff₀ hwpos] at hpr'
    have hlt : p * (w + 1) < ((j - lb + 1 : ℤ) : ℝ) := by
      have hle : p * (w + 1) ≤ ((j - lb + 1 : ℤ) : ℝ) := by push_cast at hpr' ⊢; exact hpr'
      refine lt_of_le_of_ne hle ?_
      have := hm (j - lb + 1).toNat (by omega)
      have e : (((j - lb + 1).toNat : ℕ) : ℝ) = ((j - lb + 1 : ℤ) : ℝ) := by
        have : (((j - lb + 1).toNat : ℕ) : ℤ) = j - lb + 1 := Int.toNat_of_nonneg (by omega)
        exact_mod_cast congrArg (fun z : ℤ => (z : ℝ)) this
      rwa [e] at this
    have := Int.floor_lt.2 hlt
    omega

end

section
attribute [local instance] exactFP exactFP_exact
example : ∃ d, UniformI.new .debug (-2) 5 = .ok (.ok d) ∧ UniformI.Fits (-2) 5 := by
  have hf : UniformI.Fits (-2) 5 := by unfold UniformI.Fits; norm_num
  exact ⟨_, (UniformI.new_ok hf).2 ⟨by norm_num, rfl⟩, hf⟩
end
end Rstat
