import Verif.Model.Dist.Triangular
import Verif.Lemmas.Dist.Triangular
import Verif.Lemmas.DistBase
import Verif.Props.Dist.Weibull

/-! Properties C76, C77, C117: the triangular law. Parameters: left end `a`, `p = c - a > 0`, `q = b - c > 0`. -/
set_option linter.unusedSectionVars false
namespace Rstat
open F64 Consts Spec MeasureTheory Set

theorem Triangular.new_ok [FP] {a p q : F64} {d : Triangular} :
    Triangular.new a p q = .ok d ↔ 0 < p ∧ 0 < q ∧ d = ⟨a, p, q⟩ := by
  simp only [Triangular.new, exc_bind_ok, Loc.new_ok, Scale.new_ok]
  constructor
  · rintro ⟨_, rfl, _, ⟨h0, rfl⟩, _, ⟨h1, rfl⟩, h⟩; exact ⟨h0, h1, by cases h; rfl⟩
  · rintro ⟨h0, h1, rfl⟩; exact ⟨_, rfl, _, ⟨h0, rfl⟩, _, ⟨h1, rfl⟩, rfl⟩

section
variable [FP] [FP.Exact] {a fp fq : F64} {m p q : ℝ} {d : Triangular}

theorem tri_pdf_far (hp : 0 < p) (hq : 0 < q) (ha : a.Is m) (hfp : fp.Is p) (hfq : fq.Is q) {x : F64} {t : ℝ} (hx : x.Is t)
    (ht : t = m + p ∨ 1 / 10 ^ 7 ≤ |t - (m + p)| ∨ t ≤ m) :
    (Triangular.pdf ⟨a, fp, fq⟩ x).Is (triangularPDF m (m + p + q) (m + p) t) := by
  have hc : (Triangular.c ⟨a, fp, fq⟩).Is (m + p) := ha.add hfp
  have hb : (Triangular.b ⟨a, fp, fq⟩).Is (m + p + q) := hc.add hfq
  have hac : (m + p + q) - m ≠ 0 := by linarith
  have h2 : m + p - m ≠ 0 := by linarith
  have h3 : m + p + q - (m + p) ≠ 0 := by linarith
  unfold Triangular.pdf triangularPDF
  by_cases h1 : t ≤ m
  · have c1 : x ≤ a := (hx.le_iff ha).2 h1
    simp only [c1, if_true]
    refine Is.congr Is.zero ?_
    rcases h1.lt_or_eq with h | h
    · rw [if_pos h]
    · rw [h, if_neg (lt_irrefl _), if_pos (by linarith), sub_self, mul_zero, zero_div]
  · have c1 : ¬ x ≤ a := fun h => h1 ((hx.le_iff ha).1 h)
    simp only [c1, if_false]
    rw [if_neg (show ¬ t < m from fun h => h1 h.le)]
    have habs : (x - Triangular.c ⟨a, fp, fq⟩).abs.Is |t - (m + p)| := (hx.sub hc).abs
    rcases ht with ht | ht | ht
    · have c2 : (x - Triangular.c ⟨a, fp, fq⟩).abs < F64.lit (1 / 10 ^ 7) :=
        (habs.lt_iff (Is.lit _)).2 (by rw [ht, sub_self, abs_zero]; norm_num)
      simp only [c2, if_true]
      rw [if_neg (by rw [ht]; exact lt_irrefl _), if_pos ht]
      fev
    · have c2 : ¬ (x - Triangular.c ⟨a, fp, fq⟩).abs < F64.lit (1 / 10 ^ 7) :=
        fun h => absurd ((habs.lt_iff (Is.lit _)).1 h) (not_lt.2 ht)
      simp only [c2, if_false]
      have hne : t ≠ m + p := fun h => by rw [h, sub_self, abs_zero] at ht; norm_num at ht
      rw [if_neg hne]
      by_cases h4 : t < m + p
      · have c3 : x < Triangular.c ⟨a, fp, fq⟩ := (hx.lt_iff hc).2 h4
        simp only [c3, if_true]
        rw [if_pos h4]
        refine Is.congr (r := 2 * (t - m) / (m + p + q - m) / (m + p - m)) (by fev) (by rw [div_div])
      · have c3 : ¬ x < Triangular.c ⟨a, fp, fq⟩ := fun h => h4 ((hx.lt_iff hc).1 h)
        simp only [c3, if_false]
        rw [if_neg h4]
        by_cases h5 : t ≤ m + p + q
        · have c4 : x ≤ Triangular.b ⟨a, fp, fq⟩ := (hx.le_iff hb).2 h5
          simp only [c4, if_true]
          rw [if_pos h5]
          refine Is.congr (r := 2 * (m + p + q - t) / (m + p + q - m) / (m + p + q - (m + p))) (by fev) (by rw [div_div])
        · have c4 : ¬ x ≤ Triangular.b ⟨a, fp, fq⟩ := fun h => h5 ((hx.le_iff hb).1 h)
          simp only [c4, if_false]
          rw [if_neg h5]; exact Is.zero
    · exact absurd ht h1

/-- C76 (what holds): with `c = a + a2c` and `b = c + c2b`: `support` is `[a, b]`; `cdf` is the distribution function of the triangular law at
every point; `pdf` is its density at the peak and everywhere further than `1e-7` from it; variance, skewness, kurtosis
and excess kurtosis are its moments, `cdf(median) = 1/2`, the mode maximises the density. -/
theorem C76_triangular_partial (h : Triangular.new a fp fq = .ok d) (ha : a.Is m) (hfp : fp.Is p) (hfq : fq.Is q) :
    0 < p ∧ 0 < q ∧
    (d.support.1.Is m ∧ d.support.2.Is (m + p + q)) ∧
    Computes (fun x => (d.cdf x).val) (triangularCDF m (m + p + q) (m + p)) univ ∧
    Computes d.pdf (triangularPDF m (m + p + q) (m + p)) {t | t = m + p ∨ 1 / 10 ^ 7 ≤ |t - (m + p)|} ∧
    IsCDF (triangularCDF m (m + p + q) (m + p)) ∧
    IsDensityOf (triangularPDF m (m + p + q) (m + p)) (triangularCDF m (m + p + q) (m + p)) ∧
    (∃ μ v, d.variance.Is v ∧ HasMeanVar (triangularPDF m (m + p + q) (m + p)) μ v) ∧
    (∃ s, d.skewness.Is s ∧ HasSkew (triangularPDF m (m + p + q) (m + p)) s) ∧
    (∃ κ, d.kurtosis.Is κ ∧ HasKurt (triangularPDF m (m + p + q) (m + p)) κ ∧ d.excessKurtosis.Is (κ - 3)) ∧
    (∃ x, d.median.Is x ∧ triangularCDF m (m + p + q) (m + p) x = 1 / 2) ∧
    (∃ y x, d.modes = [y] ∧ y.Is x ∧ IsMode (triangularPDF m (m + p + q) (m + p)) x) := by
  obtain ⟨h0, h1, rfl⟩ := Triangular.new_ok.1 h
  have hp : 0 < p := pos_of_lt h0 hfp
  have hq : 0 < q := pos_of_lt h1 hfq
  have hc : (Triangular.c ⟨a, fp, fq⟩).Is (m + p) := ha.add hfp
  have hb : (Triangular.b ⟨a, fp, fq⟩).Is (m + p + q) := hc.add hfq
  have hac : m < m + p := by linarith
  have hcb : m + p < m + p + q := by linarith
  obtain ⟨hF, hD⟩ := tri_density hac hcb
  obtain ⟨hV, mv, sk, ku⟩ := tri_moments hac hcb
  have k1 : (m + p + q) - m ≠ 0 := by linarith
  have k2 : m + p - m ≠ 0 := by linarith
  have k3 : m + p + q - (m + p) ≠ 0 := by linarith
  refine ⟨hp, hq, ⟨ha, hb⟩, fun x t _ hx => ?_, fun x t ht hx => tri_pdf_far hp hq ha hfp hfq hx (ht.imp id Or.inl),
    hF, hD, ⟨_, _, ?_, mv⟩, ⟨_, ?_, sk⟩, ⟨_, ?_, ku, ?_⟩, ?_, ⟨_, _, rfl, hc, tri_mode hac hcb⟩⟩
  · unfold Triangular.cdf triangularCDF
    by_cases c1 : t ≤ m
    · have c1' : x ≤ (⟨a, fp, fq⟩ : Triangular).a := (hx.le_iff ha).2 c1
      simp only [c1', if_true, c1]; exact Is.zero
    · have c1' : ¬ x ≤ (⟨a, fp, fq⟩ : Triangular).a := fun h => c1 ((hx.le_iff ha).1 h)
      simp only [c1', c1, if_false]
      by_cases c2 : t ≤ m + p
      · have c2' : x ≤ Triangular.c ⟨a, fp, fq⟩ := (hx.le_iff hc).2 c2
        simp only [c2', c2, if_true, Probability.newUnchecked]
        refine Is.congr (r := (t - m) * (t - m) / (m + p + q - m) / (m + p - m)) (by fev) (by rw [div_div, sq])
      · have c2' : ¬ x ≤ Triangular.c ⟨a, fp, fq⟩ := fun h => c2 ((hx.le_iff hc).1 h)
        simp only [c2', c2, if_false]
        by_cases c3 : t ≤ m + p + q
        · have c3' : x ≤ Triangular.b ⟨a, fp, fq⟩ := (hx.le_iff hb).2 c3
          simp only [c3', if_true, Probability.newUnchecked]
          refine Is.congr (r := 1 - (m + p + q - t) * (m + p + q - t) / (m + p + q - m) / (m + p + q - (m + p))) (by fev) ?_
          split_ifs with c4
          · rw [div_div, sq]
          · have e : t = m + p + q := le_antisymm c3 (not_lt.1 c4)
            rw [e]; simp
        · have c3' : ¬ x ≤ Triangular.b ⟨a, fp, fq⟩ := fun h => c3 ((hx.le_iff hb).1 h)
          simp only [c3', if_false]
          rw [if_neg (by push Not at c3 ⊢; exact c3.le)]; exact Is.one
  · unfold Triangular.variance; dsimp only; fev
  · unfold Triangular.skewness; dsimp only
    have hsq : ((⟨a, fp, fq⟩ : Triangular).a * (⟨a, fp, fq⟩ : Triangular).a + Triangular.b ⟨a, fp, fq⟩ * Triangular.b ⟨a, fp, fq⟩ +
        Triangular.c ⟨a, fp, fq⟩ * Triangular.c ⟨a, fp, fq⟩ - ((⟨a, fp, fq⟩ : Triangular).a * Triangular.b ⟨a, fp, fq⟩ +
        (⟨a, fp, fq⟩ : Triangular).a * Triangular.c ⟨a, fp, fq⟩ + Triangular.b ⟨a, fp, fq⟩ * Triangular.c ⟨a, fp, fq⟩)).Is
        (m * m + (m + p + q) * (m + p + q) + (m + p) * (m + p) - (m * (m + p + q) + m * (m + p) + (m + p + q) * (m + p))) := by fev
    set W := m * m + (m + p + q) * (m + p + q) + (m + p) * (m + p) - (m * (m + p + q) + m * (m + p) + (m + p + q) * (m + p)) with hW
    have hWp : 0 < W := by linarith
    have hpw := Is.powf hsq THREE_HALVES_is hWp
    rw [rpow_three_halves hWp] at hpw
    have hne : 5 * Real.sqrt W ^ 3 ≠ 0 := by positivity
    refine Is.congr (Is.div (Is.mul (Is.mul (Is.mul (Is.sqrt (Is.num 2) (by norm_num)) ((ha.add hb).sub ((Is.num 2).mul hc)))
      (((Is.num 2).mul ha).sub hb |>.sub hc)) ((ha.sub ((Is.num 2).mul hb)).add hc)) ((Is.num 5).mul hpw) hne) ?_
    have e1 : Real.sqrt (W / 18) = Real.sqrt W / (3 * Real.sqrt 2) := by
      rw [Real.sqrt_div hWp.le, show (18:ℝ) = 3 ^ 2 * 2 by norm_num, Real.sqrt_mul (by norm_num), Real.sqrt_sq (by norm_num)]
    rw [e1]
    have h2 : Real.sqrt 2 ^ 2 = 2 := Real.sq_sqrt (by norm_num)
    have h20 : Real.sqrt 2 ≠ 0 := by positivity
    have hW0 : Real.sqrt W ≠ 0 := by positivity
    generalize Real.sqrt W = w at *
    generalize Real.sqrt 2 = s at *
    field_simp
    rw [show s ^ 2 = 2 from h2]
    ring
  · unfold Triangular.kurtosis; fev
  · unfold Triangular.excessKurtosis; refine Is.congr (r := -(3 / 5)) (by fev) (by norm_num)
  · unfold Triangular.median; dsimp only
    have hmid : (((⟨a, fp, fq⟩ : Triangular).a + Triangular.b ⟨a, fp, fq⟩) / 2).Is ((m + (m + p + q)) / 2) := by fev
    by_cases hle : (m + (m + p + q)) / 2 ≤ m + p
    · have c1 := (hmid.le_iff hc).2 hle
      simp only [c1, if_true]
      have hpos : 0 < (m + p + q - m) * (m + p - m) / 2 := by
        rw [show (m + p + q - m) * (m + p - m) / 2 = (p + q) * p / 2 by ring]; positivity
      refine ⟨m + Real.sqrt ((m + p + q - m) * (m + p - m) / 2), by fev, ?_⟩
      have hs := Real.sqrt_pos.2 hpos
      have hs2 := Real.sq_sqrt hpos.le
      have hle2 : Real.sqrt ((m + p + q - m) * (m + p - m) / 2) ≤ p := by
        rw [Real.sqrt_le_left hp.le]; nlinarith
      rw [triangularCDF, if_neg (by linarith), if_pos (by linarith), add_sub_cancel_left, hs2]
      field_simp
    · have c1 : ¬ _ := fun h => hle ((hmid.le_iff hc).1 h)
      simp only [c1, if_false]
      push Not at hle
      have hpos : 0 < (m + p + q - m) * (m + p + q - (m + p)) / 2 := by
        rw [show (m + p + q - m) * (m + p + q - (m + p)) / 2 = (p + q) * q / 2 by ring]; positivity
      refine ⟨m + p + q - Real.sqrt ((m + p + q - m) * (m + p + q - (m + p)) / 2), by fev, ?_⟩
      have hs := Real.sqrt_pos.2 hpos
      have hs2 := Real.sq_sqrt hpos.le
      have hle2 : Real.sqrt ((m + p + q - m) * (m + p + q - (m + p)) / 2) < q := by
        rw [Real.sqrt_lt' hq]; nlinarith
      rw [triangularCDF, if_neg (by linarith), if_neg (by linarith), if_pos (by linarith), sub_sub_cancel, hs2]
      field_simp
      ring

/-- C76: `Params::symmetric(a, b)` is accepted exactly for `a < b` and gives the law on `[a, b]` with peak at the midpoint. -/
theorem C76_triangular_symmetric {b : F64} {l u : ℝ} (ha : a.Is l) (hb : b.Is u) :
    ((∃ d, Triangular.symmetric a b = .ok d) ↔ l < u) ∧
    ∀ d, Triangular.symmetric a b = .ok d → d.support.1.Is l ∧ d.support.2.Is u ∧ ∃ y, d.modes = [y] ∧ y.Is ((l + u) / 2) := by
  have hd : ((b - a) / 2).Is ((u - l) / 2) := by fev
  have hlt : 0 < (b - a) / 2 ↔ l < u := by
    rw [Is.zero.lt_iff hd]; constructor <;> intro h <;> linarith
  unfold Triangular.symmetric; dsimp only
  refine ⟨⟨fun ⟨d, h⟩ => hlt.1 (Triangular.new_ok.1 h).1, fun h => ⟨_, Triangular.new_ok.2 ⟨hlt.2 h, hlt.2 h, rfl⟩⟩⟩, fun d h => ?_⟩
  obtain ⟨-, -, rfl⟩ := Triangular.new_ok.1 h
  exact ⟨ha, ((ha.add hd).add hd).congr (by ring), _, rfl, (ha.add hd).congr (by ring)⟩

/-- C76 (violated): at every point of the support within `1e-7` of the peak, other than the peak itself, `pdf` returns the peak value
`2/(b-a)`, which is not the density there. -/
theorem C76_triangular_pdf_near_peak_violated (h : Triangular.new a fp fq = .ok d) (ha : a.Is m) (hfp : fp.Is p) (hfq : fq.Is q)
    {x : F64} {t : ℝ} (hx : x.Is t) (ht : m < t) (ht2 : t ≤ m + p + q) (hne : t ≠ m + p) (hn : |t - (m + p)| < 1 / 10 ^ 7) :
    ∃ r, (d.pdf x).Is r ∧ r ≠ triangularPDF m (m + p + q) (m + p) t := by
  obtain ⟨h0, h1, rfl⟩ := Triangular.new_ok.1 h
  have hp : 0 < p := pos_of_lt h0 hfp
  have hq : 0 < q := pos_of_lt h1 hfq
  have hc : (Triangular.c ⟨a, fp, fq⟩).Is (m + p) := ha.add hfp
  have hb : (Triangular.b ⟨a, fp, fq⟩).Is (m + p + q) := hc.add hfq
  have k1 : (m + p + q) - m ≠ 0 := by linarith
  have c1 : ¬ x ≤ a := fun h => absurd ((hx.le_iff ha).1 h) (not_le.2 ht)
  have c2 : (x - Triangular.c ⟨a, fp, fq⟩).abs < F64.lit (1 / 10 ^ 7) := ((hx.sub hc).abs.lt_iff (Is.lit _)).2 hn
  refine ⟨2 / (m + p + q - m), ?_, fun e => hne ?_⟩
  · unfold Triangular.pdf; simp only [c1, c2, if_true, if_false]; fev
  · have hpq : 0 < p + q := by linarith
    unfold triangularPDF at e
    rw [if_neg (not_lt.2 ht.le), if_neg hne, if_pos ht2, show m + p + q - m = p + q by ring, show m + p - m = p by ring,
      show m + p + q - (m + p) = q by ring] at e
    split_ifs at e with h3
    · field_simp at e; linarith
    · field_simp at e; linarith

/-- C77 (violated): the mean of the law is `(a+b+c)/3`; the code divides by 2, so it is right only where `a+b+c = 0`. -/
theorem C77_triangular_mean_violated (h : Triangular.new a fp fq = .ok d) (ha : a.Is m) (hfp : fp.Is p) (hfq : fq.Is q) :
    ∃ r μ, d.mean.Is r ∧ HasMean (triangularPDF m (m + p + q) (m + p)) μ ∧ (r = μ ↔ m + (m + p + q) + (m + p) = 0) := by
  obtain ⟨h0, h1, rfl⟩ := Triangular.new_ok.1 h
  have hp : 0 < p := pos_of_lt h0 hfp
  have hq : 0 < q := pos_of_lt h1 hfq
  have hc : (Triangular.c ⟨a, fp, fq⟩).Is (m + p) := ha.add hfp
  have hb : (Triangular.b ⟨a, fp, fq⟩).Is (m + p + q) := hc.add hfq
  refine ⟨(m + (m + p + q) + (m + p)) / 2, _, ?_, (tri_moments (by linarith) (by linarith)).2.1.1, ?_⟩
  · unfold Triangular.mean; fev
  · constructor <;> intro e <;> linarith

/-- C117 (violated): the differential entropy of the law is `1/2 + ln((b-a)/2)`; `shannon_entropy` is larger by `1/2` for all
parameters. -/
theorem C117_triangular_entropy_violated (h : Triangular.new a fp fq = .ok d) (ha : a.Is m) (hfp : fp.Is p) (hfq : fq.Is q) :
    ∃ r e, d.shannonEntropy.Is r ∧ HasEntropy (triangularPDF m (m + p + q) (m + p)) e ∧ r = e + 1 / 2 := by
  obtain ⟨h0, h1, rfl⟩ := Triangular.new_ok.1 h
  have hp : 0 < p := pos_of_lt h0 hfp
  have hq : 0 < q := pos_of_lt h1 hfq
  have hc : (Triangular.c ⟨a, fp, fq⟩).Is (m + p) := ha.add hfp
  have hb : (Triangular.b ⟨a, fp, fq⟩).Is (m + p + q) := hc.add hfq
  refine ⟨1 + Real.log ((m + p + q - m) / 2), _, ?_, tri_entropy (by linarith) (by linarith), by ring⟩
  unfold Triangular.shannonEntropy
  have : 0 < (m + p + q - m) / 2 := by linarith
  fev

end

section
attribute [local instance] exactFP exactFP_exact
example : ∃ d, Triangular.new (fin 1) (fin 2) (fin 3) = .ok d ∧ (d.cdf (fin 2)).val.Is (triangularCDF 1 (1 + 2 + 3) (1 + 2) 2) ∧
    (∃ r e, d.shannonEntropy.Is r ∧ HasEntropy (triangularPDF 1 (1 + 2 + 3) (1 + 2)) e ∧ r = e + 1 / 2) := by
  have h : Triangular.new (fin 1) (fin 2) (fin 3) = .ok ⟨fin 1, fin 2, fin 3⟩ :=
    Triangular.new_ok.2 ⟨fin_lt_fin.2 (by norm_num), fin_lt_fin.2 (by norm_num), rfl⟩
  exact ⟨_, h, (C76_triangular_partial h (Is.fin _) (Is.fin _) (Is.fin _)).2.2.2.1 _ 2 trivial (Is.fin _),
    C117_triangular_entropy_violated h (Is.fin _) (Is.fin _) (Is.fin _)⟩
/-- a point near the peak -/
example : (1 + 2 : ℝ) + 1 / 10 ^ 8 ≠ 1 + 2 ∧ |(1 + 2 : ℝ) + 1 / 10 ^ 8 - (1 + 2)| < 1 / 10 ^ 7 := by
  constructor
  · norm_num
  · rw [add_sub_cancel_left]; norm_num
end
end Rstat
