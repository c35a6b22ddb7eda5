import Verif.Props.FloatMoments
import Verif.Props.Dist.Beta
import Verif.Props.Dist.BetaPrime
import Verif.Props.Dist.FDist
import Verif.Props.Dist.StudentT
import Verif.Props.Dist.BetaBinomial
import Verif.Props.Dist.Bernoulli
import Verif.Props.Dist.Binomial
import Verif.Props.Dist.Geometric
import Verif.Props.Dist.Poisson
import Verif.Props.FloatSample2
import Verif.Props.FloatStats2

/-! C254, second part: beta family, families with integer parameters, discrete laws; violations. -/
set_option linter.unusedSectionVars false
namespace Rstat
open F64 Spec Consts Real

section
variable [FP] [FP.Lawful] [FP.Libm] [FP.Accurate] {a b : F64} {α β s t : ℝ} {j k n : ℕ}

/-- C254 (beta law): mean, variance and (away from symmetry) skewness. -/
theorem C254_beta {d : BetaDist} (h : BetaDist.new a b = .ok d) (ha : a.Is α) (hb : b.Is β) (hα : Ordinary α) (hβ : Ordinary β) :
    (∃ m v, HasMeanVar (ProbabilityTheory.betaPDFReal α β) m v ∧ RelClose d.mean m (1 / 2 ^ 46) ∧ RelClose d.variance v (1 / 2 ^ 46)) ∧
    (Ordinary |β - α| → ∃ κ, HasSkew (ProbabilityTheory.betaPDFReal α β) κ ∧ RelClose d.skewness κ (1 / 2 ^ 46)) := by
  obtain ⟨_, _, rfl⟩ := BetaDist.new_ok.1 h
  have r := Rel.ord ha hα
  have q := Rel.ord hb hβ
  have α0 := hα.pos
  have β0 := hβ.pos
  obtain ⟨m1, m2, -⟩ := beta_moments α0 β0
  have apb := r.add q α0 β0 (by norm_num) (by norm_num)
  have apb1 := apb.add (Rel.one.mono (by norm_num) (by norm_num)) (by positivity) one_pos (by norm_num) (by norm_num)
  have amb := r.mul q (by norm_num) (by norm_num)
  refine ⟨⟨_, _, m1, ?_, ?_⟩, fun hd => ⟨_, m2, ?_⟩⟩
  · have w := q.div r (by norm_num) (by norm_num)
    exact ((Rel.one.div ((Rel.one.mono (by norm_num) (by norm_num)).add w one_pos (by positivity) (by norm_num) (by norm_num)) (by norm_num)
      (by norm_num)).congr (by field_simp)).close (by norm_num)
  · exact ((amb.div ((apb.mul apb (by norm_num) (by norm_num)).mul apb1 (by norm_num) (by norm_num)) (by norm_num) (by norm_num)).congr
      (by ring)).close (by norm_num)
  · have w : Rel (b - a) (β - α) 60 1 := Rel.sub hb ha hd.1 hd.2 (by norm_num)
    have apb2 := apb.add ((Rel.num 2 (by norm_num)).mono (by norm_num) (by norm_num)) (by positivity) two_pos (by norm_num) (by norm_num)
    exact ((((((Rel.num 2 (by norm_num)).mul w (by norm_num) (by norm_num)).mul (apb1.sqrt (by positivity) (by norm_num) (by norm_num)) (by norm_num)
      (by norm_num)).div apb2 (by norm_num) (by norm_num)).div (amb.sqrt (by positivity) (by norm_num) (by norm_num)) (by norm_num)
      (by norm_num))).close (by norm_num)

/-- C254 (beta prime law): each moment above its threshold. -/
theorem C254_beta_prime {d : BetaPrime} (h : BetaPrime.new a b = .ok d) (ha : a.Is α) (hb : b.Is β) (hα : Ordinary α) (hβ : Ordinary β) :
    (Ordinary (β - 1) → ∃ m, HasMean (betaPrimePDF α β) m ∧ ReturnsClose d.mean m (1 / 2 ^ 46)) ∧
    (Ordinary (β - 2) → ∃ m v, HasMeanVar (betaPrimePDF α β) m v ∧ ReturnsClose d.variance v (1 / 2 ^ 46)) ∧
    (Ordinary (β - 3) → ∃ κ, HasSkew (betaPrimePDF α β) κ ∧ ReturnsClose d.skewness κ (1 / 2 ^ 46)) := by
  obtain ⟨_, _, rfl⟩ := BetaPrime.new_ok.1 h
  have r := Rel.ord ha hα
  have q := Rel.ord hb hβ
  have α0 := hα.pos
  have β0 := hβ.pos
  have nle : ∀ {c : ℝ} {x : F64}, x.Is c → Ordinary (β - c) → ¬ b ≤ x := fun hc hlt hle =>
    absurd ((hb.le_iff hc).1 hle) (not_le.2 (by have := hlt.pos; linarith))
  have up : ∀ {c c' : ℝ}, 0 ≤ c' → c' ≤ c → Ordinary (β - c) → Ordinary (β - c') := fun h0 h1 h2 =>
    ⟨h2.1.trans (by linarith), le_trans (by linarith) hβ.2⟩
  refine ⟨fun h => ⟨_, (bp_raws (b := β) α0).1 (by have := h.pos; linarith), _,
      by unfold BetaPrime.mean; rw [if_neg (nle Is.one h)], ?_⟩,
    fun h => ⟨_, _, bp_meanVar α0 (by have := h.pos; linarith), _, by unfold BetaPrime.variance; rw [if_neg (nle (Is.num 2) h)], ?_⟩,
    fun h => ⟨_, bp_skew α0 (by have := h.pos; linarith), _, by unfold BetaPrime.skewness; rw [if_neg (nle (Is.num 3) h)], ?_⟩⟩
  · exact (r.div (Rel.sub_ord hb Is.one h) (by norm_num) (by norm_num)).close (by norm_num)
  · have h1 := up (c' := 1) (by norm_num) (by norm_num) h
    have w := Rel.sub_ord hb Is.one h1
    have w2 := Rel.sub_ord hb (Is.num 2) h
    have p1 := h1.pos
    have p2 := h.pos
    have u := (r.mono (n' := 1) le_rfl (by norm_num)).add w α0 h1.pos (by norm_num) (by norm_num)
    exact (((((r.mul u (by norm_num) (by norm_num)).div w2 (by norm_num) (by norm_num)).div w (by norm_num) (by norm_num)).div w (by norm_num)
      (by norm_num)).congr (by field_simp; ring)).close (by norm_num)
  · have h1 := up (c' := 1) (by norm_num) (by norm_num) h
    have h2 := up (c' := 2) (by norm_num) (by norm_num) h
    have w := Rel.sub_ord hb Is.one h1
    have w2 := Rel.sub_ord hb (Is.num 2) h2
    have w3 := Rel.sub_ord hb (Is.num 3) h
    have u := (r.mono (n' := 1) le_rfl (by norm_num)).add w α0 h1.pos (by norm_num) (by norm_num)
    have p1 := h1.pos
    have p2 := h2.pos
    have u2 := ((Rel.num 2 (by norm_num)).mul r (by norm_num) (by norm_num)).add (w.mono (by norm_num) (by norm_num)) (by positivity) p1 (by norm_num) (by norm_num)
    exact ((((Rel.num 2 (by norm_num)).mul u2 (by norm_num) (by norm_num)).div w3 (by norm_num) (by norm_num)).mul
      ((w2.div (r.mul u (by norm_num) (by norm_num)) (by norm_num) (by norm_num)).sqrt (by positivity) (by norm_num) (by norm_num)) (by norm_num)
      (by norm_num)).close (by norm_num)

/-- `n as f64 - c` for an integer above `c` -/
theorem Rel.ofNat_sub {n : ℕ} (r : ℕ) {c : F64} {C : ℕ} (hc : Rel c (C : ℝ) 64 1) (hn : C < n) (h : n < 2 ^ 64) (hr : n + C ≤ r * (n - C))
    (hr' : r ≤ 2000) : Rel (F64.ofNat n - c) ((n : ℝ) - C) 64 (r * 1 + 1) := by
  have k1 : (1:ℝ) ≤ (n:ℝ) - C := by
    have : (C:ℝ) + 1 ≤ n := by exact_mod_cast hn
    linarith
  have k2 : (n:ℝ) ≤ 2 ^ 64 := by exact_mod_cast h.le
  have c0 : (0:ℝ) ≤ C := by positivity
  refine Rel.sub_amp r (Rel.ofNat (by omega) h) hc ?_ ?_ ?_ (by norm_num) (by omega)
  · rw [abs_of_pos (by linarith)]; refine le_trans ?_ k1; norm_num
  · rw [abs_of_pos (by linarith)]; linarith
  · rw [abs_of_pos (by linarith : (0:ℝ) < n), abs_of_nonneg c0, abs_of_pos (by linarith)]
    have : ((n + C : ℕ) : ℝ) ≤ ((r * (n - C) : ℕ) : ℝ) := by exact_mod_cast hr
    rw [Nat.cast_mul, Nat.cast_sub hn.le] at this
    push_cast at this
    exact this

theorem Rel.two64 : Rel (2 : F64) ((2 : ℕ) : ℝ) 64 1 := (Rel.num 2 (by norm_num)).mono (by norm_num) (by norm_num)
theorem Rel.four64 : Rel (4 : F64) ((4 : ℕ) : ℝ) 64 1 := (Rel.num 4 (by norm_num)).mono (by norm_num) (by norm_num)

/-- C254 (Fisher-Snedecor law): mean and variance, for all degrees of freedom. -/
theorem C254_f_dist {m n : ℕ} {d : FDist} (h : FDist.new m n = .ok d) (hm : m < 2 ^ 64) (hn : n < 2 ^ 64) :
    (2 < n → ∃ μ, HasMean (fPDF m n) μ ∧ ReturnsClose d.mean μ (1 / 2 ^ 46)) ∧
    (4 < n → ∃ μ v, HasMeanVar (fPDF m n) μ v ∧ ReturnsClose d.variance v (1 / 2 ^ 46)) := by
  obtain ⟨m0, n0, rfl⟩ := FDist.new_ok.1 h
  have m0' : (0:ℝ) < m := by exact_mod_cast m0
  have r := Rel.ofNat m0 hm
  have q := Rel.ofNat n0 hn
  refine ⟨fun h => ⟨_, f_mean m0' (by exact_mod_cast h), _, by unfold FDist.mean; rw [if_neg (by simpa using h)], ?_⟩,
    fun h => ⟨_, _, f_meanVar m0' (by exact_mod_cast h), _, by unfold FDist.variance; rw [if_neg (by simpa using h)], ?_⟩⟩
  · have w := Rel.ofNat_sub 5 Rel.two64 h hn (by omega) (by norm_num)
    exact (q.div w (by norm_num) (by norm_num)).close (by norm_num)
  · have w : Rel (F64.ofNat n - 2) ((n : ℝ) - 2) 64 _ := Rel.ofNat_sub (C := 2) 3 Rel.two64 (by omega) hn (by omega) (by norm_num)
    have w4 : Rel (F64.ofNat n - 4) ((n : ℝ) - 4) 64 _ := Rel.ofNat_sub (C := 4) 9 Rel.four64 h hn (by omega) (by norm_num)
    have n4 : (4:ℝ) < n := by exact_mod_cast h
    have u := (r.mono (n' := 3 * 1 + 1) le_rfl (by norm_num)).add w m0' (by linarith) (by norm_num) (by norm_num)
    exact ((((((((Rel.num 2 (by norm_num)).mul q (by norm_num) (by norm_num)).mul q (by norm_num) (by norm_num)).mul u (by norm_num)
      (by norm_num)).div r (by norm_num) (by norm_num)).div w (by norm_num) (by norm_num)).div w (by norm_num) (by norm_num)).div w4 (by norm_num)
      (by norm_num)).close (by norm_num)

/-- C254 (Student law): variance and excess kurtosis. -/
theorem C254_student {d : StudentT} (h : StudentT.new a = .ok d) (ha : a.Is s) (hs : Ordinary s) :
    (Ordinary (s - 2) → ∃ m v, HasMeanVar (studentPDF s) m v ∧ ReturnsClose d.mean m (1 / 2 ^ 46) ∧ ReturnsClose d.variance v (1 / 2 ^ 46)) ∧
    (Ordinary (s - 4) → ∃ κ, HasKurt (studentPDF s) κ ∧ ReturnsClose d.excessKurtosis (κ - 3) (1 / 2 ^ 46)) := by
  obtain rfl := StudentT.new_ok.1 h
  have r := Rel.ord ha hs
  obtain ⟨m1, m2, m3, m4⟩ := student_moments hs.pos
  have nle : ∀ {c C : ℝ} {x : F64}, x.Is c → c ≤ C → Ordinary (s - C) → ¬ a ≤ x := fun hc hcc hlt hle =>
    absurd ((ha.le_iff hc).1 hle) (not_le.2 (by have := hlt.pos; linarith))
  refine ⟨fun h => ⟨_, _, m2 (by have := h.pos; linarith), ⟨0, by unfold StudentT.mean; rw [if_neg (nle Is.one (by norm_num) h)], 0, Is.zero, by simp⟩, _,
    by unfold StudentT.variance; rw [if_neg (nle Is.one (by norm_num) h), if_neg (nle (Is.num 2) le_rfl h)], ?_⟩,
    fun h => ⟨_, m4 (by have := h.pos; linarith), _,
      by unfold StudentT.excessKurtosis; rw [if_neg (nle (Is.num 2) (by norm_num) h), if_neg (nle (Is.num 4) le_rfl h)], ?_⟩⟩
  · exact (r.div (Rel.sub_ord ha (Is.num 2) h) (by norm_num) (by norm_num)).close (by norm_num)
  · rw [add_sub_cancel_right]
    exact ((Rel.num 6 (by norm_num)).div (Rel.sub_ord ha (Is.num 4) h) (by norm_num) (by norm_num)).close (by norm_num)

/-- C254 (chi-squared law): mean, variance (below the overflow of `2 * k`), skewness, excess kurtosis and kurtosis. -/
theorem C254_chi_squared {k : ℕ} {d : ChiSq} (pr : Profile) (h : ChiSq.new k = .ok d) (hk : k < 2 ^ 63) :
    (∃ m v, HasMeanVar (ProbabilityTheory.gammaPDFReal (k / 2) (1 / 2)) m v ∧ RelClose d.mean m (1 / 2 ^ 46) ∧ ReturnsClose (d.variance pr) v (1 / 2 ^ 46)) ∧
    (∃ s, HasSkew (ProbabilityTheory.gammaPDFReal (k / 2) (1 / 2)) s ∧ RelClose d.skewness s (1 / 2 ^ 46)) ∧
    ∃ κ, HasKurt (ProbabilityTheory.gammaPDFReal (k / 2) (1 / 2)) κ ∧ RelClose d.excessKurtosis (κ - 3) (1 / 2 ^ 46) ∧ RelClose d.kurtosis κ (1 / 2 ^ 46) := by
  obtain ⟨k0, rfl⟩ := ChiSq.new_ok.1 h
  have k1 : (0:ℝ) < k := by exact_mod_cast k0
  have r := Rel.ofNat k0 (by omega : k < 2 ^ 64)
  obtain ⟨m1, m2, m3⟩ := gamma_moments (a := (k:ℝ) / 2) (r := 1 / 2) (by positivity) (by norm_num)
  have e12 := (Rel.num 12 (by norm_num)).div r (by norm_num) (by norm_num)
  refine ⟨⟨_, _, m1, (r.congr (by ring)).close (by norm_num), F64.ofNat (2 * k), ?_, ?_⟩, ⟨_, m2, ?_⟩, ⟨_, m3, ?_, ?_⟩⟩
  · unfold ChiSq.variance umul
    rw [if_pos (by show 2 * k < U64; unfold U64; omega)]; rfl
  · exact ((Rel.ofNat (by omega) (by omega : 2 * k < 2 ^ 64)).congr (by push_cast; ring)).close (by norm_num)
  · refine ((((Rel.num 8 (by norm_num)).div r (by norm_num) (by norm_num)).sqrt (by positivity) (by norm_num) (by norm_num)).congr ?_).close (by norm_num)
    rw [show (8:ℝ) / k = 2 ^ 2 / (k / 2) by field_simp; norm_num, Real.sqrt_div (by norm_num), Real.sqrt_sq (by norm_num)]
  · exact (e12.congr (by field_simp; ring)).close (by norm_num)
  · exact ((e12.add ((Rel.num 3 (by norm_num)).mono (by norm_num) (by norm_num)) (by positivity) (by norm_num) (by norm_num) (by norm_num)).congr
      (by field_simp; ring)).close (by norm_num)

/-- C254 (discrete laws): mean and variance of the geometric, binomial and Bernoulli laws, skewness of the geometric law. -/
theorem C254_discrete {p : ℝ} (ha : a.Is p) (hp : Ordinary p) (hq : Ordinary (1 - p)) :
    (∀ d, Geometric.new a = .ok d → (∃ m v, HasMeanVarD (geomPMF p) (fun k => (k : ℝ)) m v ∧ RelClose d.mean m (1 / 2 ^ 46) ∧ RelClose d.variance v (1 / 2 ^ 46)) ∧
      ∃ κ, HasSkewD (geomPMF p) (fun k => (k : ℝ)) κ ∧ RelClose d.skewness κ (1 / 2 ^ 46)) ∧
    (∀ n d, 0 < n → n < 2 ^ 64 → Binomial.new n ⟨a⟩ = .ok d →
      ∃ m v, HasMeanVarD (binPMF n p) (fun k => (k : ℝ)) m v ∧ RelClose d.mean m (1 / 2 ^ 46) ∧ RelClose d.variance v (1 / 2 ^ 46)) ∧
    (∀ d, Bernoulli.new a = .ok d → ∃ m v, HasMeanVarD (bernPMF p) boolVal m v ∧ RelClose d.mean m (1 / 2 ^ 46) ∧ RelClose d.variance v (1 / 2 ^ 46)) := by
  have r := Rel.ord ha hp
  have p0 := hp.pos
  have q0 := hq.pos
  have q : Rel (1 - a) (1 - p) 60 1 := Rel.sub_ord Is.one ha hq
  refine ⟨fun d h => ?_, fun n d n0 hn h => ?_, fun d h => ?_⟩
  · obtain ⟨_, rfl⟩ := Geometric.new_ok.1 h
    have w := q.div r (by norm_num) (by norm_num)
    refine ⟨⟨_, _, geom_meanVar p0 (by linarith), w.close (by norm_num), ((w.div r (by norm_num) (by norm_num)).congr (by field_simp)).close (by norm_num)⟩,
      ⟨_, geom_skew p0 (by linarith), ?_⟩⟩
    have u : Rel (2 - a) (2 - p) 7 1 := Rel.sub (Is.num 2) ha (by rw [abs_of_pos (by linarith)]; refine le_trans (b := 1) (by norm_num) (by linarith))
      (by rw [abs_of_pos (by linarith)]; refine le_trans (b := 2) (by linarith) (by norm_num)) (by norm_num)
    exact (u.div (q.sqrt q0 (by norm_num) (by norm_num)) (by norm_num) (by norm_num)).close (by norm_num)
  · obtain ⟨_, rfl⟩ := Binomial.new_ok.1 h
    have w := Rel.ofNat n0 hn
    exact ⟨_, _, bin_meanVar n, ((r.mul w (by norm_num) (by norm_num)).congr (by ring)).close (by norm_num),
      (((r.mul q (by norm_num) (by norm_num)).mul w (by norm_num) (by norm_num)).congr (by ring)).close (by norm_num)⟩
  · obtain ⟨_, rfl⟩ := Bernoulli.new_ok.1 h
    exact ⟨_, _, bern_meanVar, r.close (by norm_num), (r.mul q (by norm_num) (by norm_num)).close (by norm_num)⟩

/-- C254 (beta-binomial law): the mean. -/
theorem C254_beta_binomial_partial {n : ℕ} {d : BetaBinomial} (h : BetaBinomial.new n a b = .ok d) (n0 : 0 < n) (hn : n < 2 ^ 64)
    (ha : a.Is α) (hb : b.Is β) (hα : Ordinary α) (hβ : Ordinary β) :
    ∃ m v, HasMeanVarD (betaBinPMF n α β) (fun k => (k : ℝ)) m v ∧ RelClose d.mean m (1 / 2 ^ 46) := by
  obtain ⟨_, _, rfl⟩ := BetaBinomial.new_ok.1 h
  have r := Rel.ord ha hα
  have q := Rel.ord hb hβ
  have apb := r.add q hα.pos hβ.pos (by norm_num) (by norm_num)
  exact ⟨_, _, bb_meanVar hα.pos hβ.pos n, ((Rel.ofNat n0 hn).mul (r.div apb (by norm_num) (by norm_num)) (by norm_num) (by norm_num)).close (by norm_num)⟩

end

/-! Violations, in correctly rounded binary64, and non-vacuity. -/
section
open B64
attribute [local instance] binary64 binary64_lawful B64.libm B64.specialFns B64.accurate

theorem not_close_zero {a : F64} {v : ℝ} (h : a.Is 0) (hv : 0 < v) : ¬ RelClose a v (1 / 2) := by
  rintro ⟨y, hy, he⟩
  rw [is_uniq hy h, zero_sub, abs_neg, abs_of_pos hv] at he
  linarith

theorem not_close_pinf {v : ℝ} : ¬ RelClose pinf v (1 / 2) := by
  rintro ⟨y, hy, -⟩
  rcases hy with h | ⟨h, -⟩ <;> cases h

theorem rnd_one_add {p : ℝ} (h0 : 0 ≤ p) (h : p ≤ 1 / 2 ^ 54) : rnd (1 + p) = 1 := by
  have h1 : p * 2 ^ 52 ≤ 1 / 4 := by
    calc p * 2 ^ 52 ≤ 1 / 2 ^ 54 * 2 ^ 52 := by gcongr
      _ = _ := by norm_num
  have := rnd_eq (x := 1 + p) (2 ^ 52) (-52) (by norm_num) (by norm_num; linarith) (by norm_num; norm_num at h; linarith) (by
    have : (1 + p) / 2 ^ (-52:ℤ) - ((2 ^ 52 : ℤ) : ℝ) = p * 2 ^ 52 := by
      rw [zpow_neg, div_inv_eq_mul]; push_cast; norm_num; ring
    rw [this, abs_of_nonneg (by positivity)]; linarith)
  rw [this]
  rw [zpow_neg]; push_cast; norm_num

theorem one_add_absorb {p : ℝ} (h0 : 0 ≤ p) (h : p ≤ 1 / 2 ^ 54) : fin 1 + fin p = fin 1 :=
  add_val (rnd_one_add h0 h) one1024 one_ne_zero

theorem absorb_one (n : ℕ) (hn : 60 ≤ n) (hn' : n ≤ 1000) : fin (2 ^ n) + 1 = fin ((2:ℝ) ^ n) := by
  refine add_val ?_ (pow_lt1024 n (by omega)) (by positivity)
  have p0 : (0:ℝ) < 2 ^ n := by positivity
  have e1 : (2:ℝ) ^ ((n:ℤ) - 52) * 2 ^ 52 = 2 ^ n := by
    rw [← zpow_natCast (2:ℝ) 52, ← zpow_add₀ (by norm_num), ← zpow_natCast (2:ℝ) n]; congr 1; push_cast; ring
  have e2 : (256:ℝ) ≤ 2 ^ ((n:ℤ) - 52) := by
    rw [show (256:ℝ) = 2 ^ (8:ℤ) by norm_num]; exact zpow_le_zpow_right₀ (by norm_num) (by omega)
  have u0 : (0:ℝ) < 2 ^ ((n:ℤ) - 52) := by positivity
  have := rnd_eq (x := (2:ℝ) ^ n + 1) (2 ^ 52) ((n:ℤ) - 52) (by omega)
    (by rw [sub_add_cancel, zpow_natCast]; linarith)
    (by rw [show (n:ℤ) - 52 + 53 = n + 1 by ring, zpow_add_one₀ (by norm_num), zpow_natCast]
        have : (1:ℝ) < 2 ^ n := one_lt_pow₀ (by norm_num) (by omega)
        linarith)
    (by
      rw [← e1, add_div, mul_div_cancel_left₀ _ u0.ne']
      rw [show ((2 ^ 52 : ℤ) : ℝ) = 2 ^ 52 by norm_num, add_sub_cancel_left, abs_of_pos (by positivity), div_lt_iff₀ u0]; linarith)
  rw [this, mul_comm, ← e1]; norm_num

theorem zero_div_val {z c : F64} {r : ℝ} (hz : z.Is 0) (hc : c.Is r) (hr : r ≠ 0) : (z / c).Is 0 := by
  have := div_fin_ext hz hc hr
  rw [zero_div] at this
  exact round_zero_is.of_ext this.symm

theorem zero_mul_is {z c : F64} {r : ℝ} (hz : z.Is 0) (hc : c.Is r) : (z * c).Is 0 := by
  have := mul_fin_ext hz hc
  rw [zero_mul] at this
  exact round_zero_is.of_ext this.symm

theorem mul_zero_is {z c : F64} {r : ℝ} (hz : z.Is 0) (hc : c.Is r) : (c * z).Is 0 := by
  have := mul_fin_ext hc hz
  rw [mul_zero] at this
  exact round_zero_is.of_ext this.symm

/-- Beta(2^n, 2^n): the denominator overflows -/
theorem beta_var_zero (n : ℕ) (h1 : 342 ≤ n) (h2 : n ≤ 510) : (BetaDist.variance ⟨fin (2 ^ n), fin (2 ^ n)⟩).Is 0 := by
  have e1 : fin (2 ^ n) + fin (2 ^ n) = fin ((2:ℝ) ^ (n + 1)) := by
    refine add_val ?_ (pow_lt1024 (n + 1) (by omega)) (by positivity)
    rw [show (2:ℝ) ^ n + 2 ^ n = 2 ^ (n + 1) by ring]; exact rnd_pow _
  have e2 := mul_pow (n + 1) (n + 1) (2 * n + 2) (by omega) (by omega)
  have e3 := absorb_one (n + 1) (by omega) (by omega)
  have e4 := mul_pow n n (2 * n) (by omega) (by omega)
  have e5 : fin ((2:ℝ) ^ (2 * n + 2)) * fin (2 ^ (n + 1)) = pinf :=
    mul_pinf_of (by positivity) (by positivity) (by rw [← pow_add]; exact pow_le_pow_right₀ (by norm_num) (by omega))
  show (fin (2 ^ n) * fin (2 ^ n) / ((fin (2 ^ n) + fin (2 ^ n)) * (fin (2 ^ n) + fin (2 ^ n)) * (fin (2 ^ n) + fin (2 ^ n) + 1))).Is 0
  rw [e1, e2, e3, e4, e5]
  exact const_div_pinf (Is.fin _)

/-- C254 (violation): laws whose variance is an ordinary number but is returned as 0 or infinity: the beta law with equal large shapes, the
Pareto law with large parameters, the triangular law that is narrow against its location, the beta-binomial law with a small second shape. -/
theorem C254_float_moments_violated :
    (∀ n : ℕ, 342 ≤ n → n ≤ 510 → ∀ d, BetaDist.new (fin (2 ^ n)) (fin (2 ^ n)) = .ok d →
      ∃ m v, HasMeanVar (ProbabilityTheory.betaPDFReal (2 ^ n) (2 ^ n)) m v ∧ ¬ RelClose d.variance v (1 / 2)) ∧
    (∀ n : ℕ, 512 ≤ n → n ≤ 1000 → ∀ d, Pareto.new (fin (2 ^ n)) (fin (2 ^ n)) = .ok d →
      ∃ m v, HasMeanVar (Spec.paretoPDF (2 ^ n) (2 ^ n)) m v ∧ v ≤ 16 ∧ ¬ RelClose d.variance v (1 / 2)) ∧
    (∀ p q : ℝ, 0 < p → p ≤ 1 / 2 ^ 54 → 0 < q → q ≤ 1 / 2 ^ 54 → ∀ d, Triangular.new (fin 1) (fin p) (fin q) = .ok d →
      ∃ m v, HasMeanVar (triangularPDF 1 (1 + p + q) (1 + p)) m v ∧ ¬ RelClose d.variance v (1 / 2)) ∧
    (∀ (n : ℕ) (β : ℝ), 0 < n → n ≤ 2 ^ 53 → 0 < β → β ≤ 1 / 2 ^ 54 → ∀ d, BetaBinomial.new n (fin 1) (fin β) = .ok d →
      ∃ m v, HasMeanVarD (betaBinPMF n 1 β) (fun k => (k : ℝ)) m v ∧ ¬ RelClose d.variance v (1 / 2)) := by
  refine ⟨fun n h1 h2 d h => ?_, fun n h1 h2 d h => ?_, fun p q p0 hp q0 hq d h => ?_, fun n β n0 hn β0 hβ d h => ?_⟩
  · obtain ⟨_, _, rfl⟩ := BetaDist.new_ok.1 h
    have p0 : (0:ℝ) < 2 ^ n := by positivity
    exact ⟨_, _, (beta_moments p0 p0).1, not_close_zero (beta_var_zero n h1 h2) (by positivity)⟩
  · obtain ⟨_, rfl⟩ := Pareto.new_ok.1 h
    have p0 : (0:ℝ) < 2 ^ n := by positivity
    have p4 : (4:ℝ) ≤ 2 ^ n := by rw [show (4:ℝ) = 2 ^ 2 by norm_num]; exact pow_le_pow_right₀ (by norm_num) (by omega)
    refine ⟨_, _, (pareto_moments_real p0 p0).2.1 (by linarith), ?_, ?_⟩
    · generalize (2:ℝ) ^ n = x at *
      have q1 : 0 < x - 1 := by linarith
      have q2 : 0 < x - 2 := by linarith
      rw [div_div, div_div, div_le_iff₀ (by positivity)]
      have a1 : x ≤ 2 * (x - 1) := by linarith
      have a2 : x ≤ 2 * (x - 2) := by linarith
      calc x * x * x ≤ (2 * (x - 1)) * (2 * (x - 1)) * (2 * (x - 2)) := by gcongr
        _ = 8 * ((x - 1) * ((x - 1) * (x - 2))) := by ring
        _ ≤ 16 * ((x - 1) * ((x - 1) * (x - 2))) := by gcongr; norm_num
    · have e : Pareto.variance ⟨fin (2 ^ n), fin (2 ^ n)⟩ = pinf := by
        have nle : ¬ fin ((2:ℝ) ^ n) ≤ 2 := fun hle => absurd (((Is.fin _).le_iff (Is.num 2)).1 hle) (not_le.2 (by linarith))
        have e1 : fin ((2:ℝ) ^ n) * fin (2 ^ n) = pinf :=
          mul_pinf_of p0 p0 (by rw [← pow_add]; exact pow_le_pow_right₀ (by norm_num) (by omega))
        have sub1 : ∀ c : ℝ, 0 ≤ c → c ≤ 2 → ∀ C : F64, C.Is c → ∃ r, fin ((2:ℝ) ^ n) - C = fin r ∧ 0 < r := by
          intro c c0 c2 C hC
          have hlo : (2:ℝ) ≤ rnd (2 ^ n - c) := by
            have := rnd_mono (show (2:ℝ) ≤ 2 ^ n - c by linarith)
            have h2 := rnd_pow 1
            rw [pow_one] at h2
            rwa [h2] at this
          have hhi : rnd (2 ^ n - c) ≤ 2 ^ n := by
            have := rnd_mono (show (2:ℝ) ^ n - c ≤ 2 ^ n by linarith)
            rwa [rnd_pow n] at this
          refine ⟨_, sub_val hC rfl ?_ (by linarith), by linarith⟩
          rw [abs_of_pos (by linarith)]
          refine lt_of_le_of_lt hhi ?_
          have := pow_lt1024 n (by omega)
          rwa [abs_of_pos p0] at this
        obtain ⟨r1, hr1, r10⟩ := sub1 1 (by norm_num) (by norm_num) 1 Is.one
        obtain ⟨r2, hr2, r20⟩ := sub1 2 (by norm_num) (by norm_num) 2 (Is.num 2)
        unfold Pareto.variance
        rw [if_neg nle]
        dsimp only
        rw [e1, hr1, hr2, pinf_mul_pos (lt_of_pos p0 (Is.fin _)), pinf_div_const r10, pinf_div_const r10, pinf_div_const r20]
      rw [e]; exact not_close_pinf
  · obtain ⟨_, _, rfl⟩ := Triangular.new_ok.1 h
    obtain ⟨v0, hv, -⟩ := tri_moments (a := 1) (b := 1 + p + q) (c := 1 + p) (by linarith) (by linarith)
    refine ⟨_, _, hv, not_close_zero ?_ v0⟩
    have ec : Triangular.c ⟨fin 1, fin p, fin q⟩ = fin 1 := one_add_absorb p0.le hp
    have eb : Triangular.b ⟨fin 1, fin p, fin q⟩ = fin 1 := by unfold Triangular.b; rw [ec]; exact one_add_absorb q0.le hq
    have m1 : fin 1 * fin 1 = fin (1:ℝ) := mul_val (by rw [mul_one]; exact F64.rnd_one) one1024 one_ne_zero
    have a2 : fin 1 + fin 1 = fin (2:ℝ) := add_val (by have := rnd_pow 1; rw [pow_one] at this; rw [one_add_one_eq_two]; exact this) (by have := pow_lt1024 1 (by norm_num); rwa [pow_one] at this) two_ne_zero
    have r3 : rnd (3:ℝ) = 3 := by exact_mod_cast rnd_natCast (n := 3) (by norm_num)
    have a3 : fin 2 + fin 1 = fin (3:ℝ) := add_val (by rw [show (2:ℝ) + 1 = 3 by norm_num]; exact r3)
      (lt1024 (by rw [abs_of_pos (by norm_num)]; norm_num)) three_ne_zero
    unfold Triangular.variance
    dsimp only
    rw [ec, eb, m1, a2, a3, sub_self_fin three_ne_zero]
    exact zero_div_val Is.zero (Is.num 18) (by norm_num)
  · obtain ⟨_, _, rfl⟩ := BetaBinomial.new_ok.1 h
    have n1 : (0:ℝ) < n := by exact_mod_cast n0
    refine ⟨_, _, bb_meanVar one_pos β0 n, not_close_zero ?_ (by positivity)⟩
    have ab : fin 1 + fin β = fin (1:ℝ) := one_add_absorb β0.le hβ
    have hpi : fin 1 / fin 1 = fin (1:ℝ) := div_val one_ne_zero (by rw [div_one]; exact F64.rnd_one) one1024 one_ne_zero
    have e0 : (1 : F64) - fin 1 = fin 0 := sub_self_fin (r := 1) one_ne_zero
    have rn : rnd (n:ℝ) = n := rnd_natCast n hn
    have n60 : (n:ℝ) ≤ 2 ^ 53 := by exact_mod_cast hn
    have s1 : ∀ x : ℝ, 0 ≤ x → x ≤ 2 ^ 54 → ∃ y, (F64.round x).Is y ∧ 0 ≤ y ∧ y ≤ 2 ^ 54 := by
      intro x x0 x1
      have hlo := rnd_mono x0
      rw [B64.rnd_zero] at hlo
      have hhi := rnd_mono x1
      rw [rnd_pow 54] at hhi
      refine ⟨rnd x, round_is (fun hh => ?_), hlo, hhi⟩
      have : (2:ℝ) ^ 1024 ≤ |rnd x| := hh
      rw [abs_of_nonneg hlo] at this
      exact absurd (this.trans hhi) (not_le.2 (pow_lt_pow_right₀ (by norm_num) (by norm_num)))
    have hN : F64.ofNat n = fin n := round_val rn (lt1024 (by rw [abs_of_pos n1]; refine n60.trans (by norm_num))) n1.ne'
    obtain ⟨N, iN, N0, N1⟩ : ∃ y, (F64.ofNat n * fin 1).Is y ∧ 0 ≤ y ∧ y ≤ 2 ^ 54 := by
      obtain ⟨y, h1, h2⟩ := s1 n n1.le (n60.trans (by norm_num))
      refine ⟨y, h1.of_ext ?_, h2⟩
      rw [hN]
      have := mul_fin_ext (Is.fin (n:ℝ)) (Is.fin (1:ℝ))
      rw [mul_one] at this
      exact this.symm
    obtain ⟨ρ, iρ, ρ0, ρ1⟩ : ∃ y, (1 / (fin 1 + 1) : F64).Is y ∧ 0 ≤ y ∧ y ≤ 2 ^ 54 := by
      have e2 : fin 1 + 1 = fin (2:ℝ) := add_val (by have := rnd_pow 1; rw [pow_one] at this; rw [one_add_one_eq_two]; exact this)
        (by have := pow_lt1024 1 (by norm_num); rwa [pow_one] at this) two_ne_zero
      obtain ⟨y, h1, h2⟩ := s1 (1 / 2) (by norm_num) (by norm_num)
      refine ⟨y, h1.of_ext ?_, h2⟩
      rw [e2]
      exact (div_fin_ext Is.one (Is.fin 2) two_ne_zero).symm
    obtain ⟨K, iK, K0, K1⟩ : ∃ y, (F64.ofNat n - 1).Is y ∧ 0 ≤ y ∧ y ≤ 2 ^ 54 := by
      have : (1:ℝ) ≤ n := by exact_mod_cast n0
      obtain ⟨y, h1, h2⟩ := s1 (n - 1) (by linarith) (by linarith [show (2:ℝ) ^ 53 ≤ 2 ^ 54 by norm_num])
      refine ⟨y, h1.of_ext ?_, h2⟩
      rw [hN]
      exact (add_ext (Is.fin (n:ℝ)) Is.one.neg).symm
    have nh : ∀ {x : ℝ}, 0 ≤ x → x ≤ 2 ^ 200 → ∃ y, (F64.round x).Is y ∧ 0 ≤ y ∧ y ≤ 2 ^ 200 := by
      intro x x0 x1
      have hlo := rnd_mono x0
      rw [B64.rnd_zero] at hlo
      have hhi := rnd_mono x1
      rw [rnd_pow 200] at hhi
      refine ⟨rnd x, round_is (fun hh => ?_), hlo, hhi⟩
      have : (2:ℝ) ^ 1024 ≤ |rnd x| := hh
      rw [abs_of_nonneg hlo] at this
      exact absurd (this.trans hhi) (not_le.2 (pow_lt_pow_right₀ (by norm_num) (by norm_num)))
    obtain ⟨P, iP, P0, P1⟩ : ∃ y, ((F64.ofNat n - 1) * (1 / (fin 1 + 1))).Is y ∧ 0 ≤ y ∧ y ≤ 2 ^ 108 := by
      have hx : K * ρ ≤ 2 ^ 108 := by
        calc K * ρ ≤ 2 ^ 54 * 2 ^ 54 := by gcongr
          _ = _ := by norm_num
      have hlo := rnd_mono (mul_nonneg K0 ρ0)
      rw [B64.rnd_zero] at hlo
      have hhi := rnd_mono hx
      rw [rnd_pow 108] at hhi
      refine ⟨rnd (K * ρ), mul_is iK iρ (fun hh => ?_), hlo, hhi⟩
      have : (2:ℝ) ^ 1024 ≤ |rnd (K * ρ)| := hh
      rw [abs_of_nonneg hlo] at this
      exact absurd (this.trans hhi) (not_le.2 (pow_lt_pow_right₀ (by norm_num) (by norm_num)))
    obtain ⟨Q, iQ, -, -⟩ := nh (x := 1 + P) (by linarith) (by
      refine le_trans (add_le_add_right P1 1) (by norm_num))
    have iQ' : (1 + (F64.ofNat n - 1) * (1 / (fin 1 + 1))).Is Q := iQ.of_ext (add_ext Is.one iP).symm
    unfold BetaBinomial.variance BetaBinomial.fromParams
    dsimp only
    rw [ab, hpi, e0]
    exact zero_mul_is (mul_zero_is Is.zero iN) iQ'

theorem ordinary_of {x : ℝ} (h1 : 1 / 1024 ≤ x) (h2 : x ≤ 1024) : Ordinary x := ⟨le_trans (by norm_num) h1, h2.trans (by norm_num)⟩

/-- non-vacuity: ordinary parameters, in binary64 -/
example : ∃ d, Gamma.new (fin 3) (fin (1 / 4)) = .ok d ∧ ∃ m v, HasMeanVar (ProbabilityTheory.gammaPDFReal 3 (1 / 4)) m v ∧ RelClose d.variance v (1 / 2 ^ 46) := by
  have h : Gamma.new (fin 3) (fin (1 / 4)) = .ok ⟨fin 3, fin (1 / 4)⟩ :=
    Gamma.new_ok.2 ⟨lt_of_pos (by norm_num) (Is.fin _), lt_of_pos (by norm_num) (Is.fin _), rfl⟩
  obtain ⟨⟨m, v, h1, -, h2⟩, -⟩ := C254_gamma h (Is.fin _) (Is.fin _) (ordinary_of (by norm_num) (by norm_num)) (ordinary_of (by norm_num) (by norm_num))
  exact ⟨_, h, m, v, h1, h2⟩
example : ∃ d, Exponential.new (fin 3) = .ok d ∧ ∃ m v, HasMeanVar (expPDF 3) m v ∧ RelClose d.mean m (1 / 2 ^ 46) := by
  have h : Exponential.new (fin 3) = .ok ⟨fin 3⟩ := Exponential.new_ok.2 ⟨lt_of_pos (by norm_num) (Is.fin _), rfl⟩
  obtain ⟨m, v, h1, h2, -⟩ := C254_exponential h (Is.fin _) (ordinary_of (by norm_num) (by norm_num))
  exact ⟨_, h, m, v, h1, h2⟩
example : ∃ d, Erlang.new 3 (fin 7) = .ok d ∧ ∃ κ, HasKurt (ProbabilityTheory.gammaPDFReal (3:ℕ) 7) κ ∧ RelClose d.excessKurtosis (κ - 3) (1 / 2 ^ 46) := by
  have h : Erlang.new 3 (fin 7) = .ok ⟨3, fin 7⟩ := Erlang.new_ok.2 ⟨by norm_num, lt_of_pos (by norm_num) (Is.fin _), rfl⟩
  exact ⟨_, h, (C254_erlang h (by norm_num) (Is.fin _) (ordinary_of (by norm_num) (by norm_num))).2.2⟩
example : ∃ d, InvGamma.new (fin 5) (fin 7) = .ok d ∧ ∃ κ, HasKurt (invGammaPDF 5 7) κ ∧ ReturnsClose d.excessKurtosis (κ - 3) (1 / 2 ^ 46) := by
  have h : InvGamma.new (fin 5) (fin 7) = .ok ⟨fin 5, fin 7⟩ :=
    InvGamma.new_ok.2 ⟨lt_of_pos (by norm_num) (Is.fin _), lt_of_pos (by norm_num) (Is.fin _), rfl⟩
  exact ⟨_, h, (C254_inverse_gamma h (Is.fin _) (Is.fin _) (ordinary_of (by norm_num) (by norm_num)) (ordinary_of (by norm_num) (by norm_num))).2.2.2
    (ordinary_of (by norm_num) (by norm_num))⟩
example : ∃ d, Pareto.new (fin 5) (fin 7) = .ok d ∧ ∃ κ, HasKurt (Spec.paretoPDF 5 7) κ ∧ ReturnsClose d.excessKurtosis (κ - 3) (1 / 2 ^ 46) := by
  have h : Pareto.new (fin 5) (fin 7) = .ok ⟨fin 5, fin 7⟩ := Pareto.new_ok.2 ⟨lt_of_pos (by norm_num) (Is.fin _), rfl⟩
  exact ⟨_, h, (C254_pareto h (Is.fin _) (Is.fin _) (ordinary_of (by norm_num) (by norm_num)) (ordinary_of (by norm_num) (by norm_num))).2.2.2
    (ordinary_of (by norm_num) (by norm_num))⟩
example : ∃ d, Cosine.new (fin 5) (fin 7) = .ok d ∧ ∃ v, HasMeanVar (cosinePDF 5 7) 5 v ∧ d.mean.Is 5 ∧ RelClose d.variance v (1 / 2 ^ 46) := by
  have h : Cosine.new (fin 5) (fin 7) = .ok ⟨fin 5, fin 7⟩ := Cosine.new_ok.2 ⟨lt_of_pos (by norm_num) (Is.fin _), rfl⟩
  exact ⟨_, h, (C254_location_scale (Is.fin 7) (ordinary_of (by norm_num) (by norm_num)) 5 (Is.fin 5)).2.2.2.2.2 _ h⟩
example : ∃ d, Rayleigh.new (fin 7) = .ok d ∧ ∃ m v, HasMeanVar (rayleighPDF 7) m v ∧ RelClose d.mean m (1 / 2 ^ 46) ∧ RelClose d.variance v (1 / 2 ^ 46) := by
  have h : Rayleigh.new (fin 7) = .ok ⟨fin 7⟩ := Rayleigh.new_ok.2 ⟨lt_of_pos (by norm_num) (Is.fin _), rfl⟩
  exact ⟨_, h, C254_rayleigh h (Is.fin _) (ordinary_of (by norm_num) (by norm_num))⟩
example : ∃ d, InvNormal.new (fin 2) (fin 7) = .ok d ∧ ∃ κ, HasSkew (invNormalPDF 2 7) κ ∧ RelClose d.skewness κ (1 / 2 ^ 46) := by
  have h : InvNormal.new (fin 2) (fin 7) = .ok ⟨fin 2, fin 7, UvNormal.standard⟩ :=
    InvNormal.new_ok.2 ⟨lt_of_pos (by norm_num) (Is.fin _), lt_of_pos (by norm_num) (Is.fin _), rfl⟩
  exact ⟨_, h, (C254_inverse_normal h (Is.fin _) (Is.fin _) (ordinary_of (by norm_num) (by norm_num)) (ordinary_of (by norm_num) (by norm_num))).2⟩
example : ∃ d, BetaDist.new (fin 2) (fin 7) = .ok d ∧ ∃ κ, HasSkew (ProbabilityTheory.betaPDFReal 2 7) κ ∧ RelClose d.skewness κ (1 / 2 ^ 46) := by
  have h : BetaDist.new (fin 2) (fin 7) = .ok ⟨fin 2, fin 7⟩ :=
    BetaDist.new_ok.2 ⟨lt_of_pos (by norm_num) (Is.fin _), lt_of_pos (by norm_num) (Is.fin _), rfl⟩
  exact ⟨_, h, (C254_beta h (Is.fin _) (Is.fin _) (ordinary_of (by norm_num) (by norm_num)) (ordinary_of (by norm_num) (by norm_num))).2
    (by rw [show (7:ℝ) - 2 = 5 by norm_num, abs_of_pos (by norm_num)]; exact ordinary_of (by norm_num) (by norm_num))⟩
example : ∃ d, BetaPrime.new (fin 2) (fin 7) = .ok d ∧ ∃ κ, HasSkew (betaPrimePDF 2 7) κ ∧ ReturnsClose d.skewness κ (1 / 2 ^ 46) := by
  have h : BetaPrime.new (fin 2) (fin 7) = .ok ⟨fin 2, fin 7⟩ :=
    BetaPrime.new_ok.2 ⟨lt_of_pos (by norm_num) (Is.fin _), lt_of_pos (by norm_num) (Is.fin _), rfl⟩
  exact ⟨_, h, (C254_beta_prime h (Is.fin _) (Is.fin _) (ordinary_of (by norm_num) (by norm_num)) (ordinary_of (by norm_num) (by norm_num))).2.2
    (ordinary_of (by norm_num) (by norm_num))⟩
example : ∃ d, FDist.new 4 10 = .ok d ∧ ∃ μ v, HasMeanVar (fPDF (4:ℕ) (10:ℕ)) μ v ∧ ReturnsClose d.variance v (1 / 2 ^ 46) :=
  ⟨_, f_ex, (C254_f_dist f_ex (by norm_num) (by norm_num)).2 (by norm_num)⟩
example : ∃ d, StudentT.new (fin 5) = .ok d ∧ ∃ κ, HasKurt (studentPDF 5) κ ∧ ReturnsClose d.excessKurtosis (κ - 3) (1 / 2 ^ 46) :=
  ⟨_, StudentT.new_ok.2 rfl, (C254_student (StudentT.new_ok.2 rfl) (Is.fin 5) (ordinary_of (by norm_num) (by norm_num))).2 (ordinary_of (by norm_num) (by norm_num))⟩
example : ∃ d, ChiSq.new 5 = .ok d ∧ ∃ κ, HasKurt (ProbabilityTheory.gammaPDFReal ((5:ℕ) / 2) (1 / 2)) κ ∧ RelClose d.excessKurtosis (κ - 3) (1 / 2 ^ 46) ∧
    RelClose d.kurtosis κ (1 / 2 ^ 46) :=
  ⟨_, chisq_ex 5 (by norm_num), (C254_chi_squared .debug (chisq_ex 5 (by norm_num)) (by norm_num)).2.2⟩
example : ∃ d, Geometric.new (fin (1 / 4)) = .ok d ∧ ∃ κ, HasSkewD (geomPMF (1 / 4)) (fun k => (k : ℝ)) κ ∧ RelClose d.skewness κ (1 / 2 ^ 46) := by
  have h : Geometric.new (fin (1 / 4)) = .ok ⟨⟨fin (1 / 4)⟩, ⟨1 - fin (1 / 4)⟩⟩ :=
    Geometric.new_ok.2 ⟨⟨(Is.zero.le_iff (Is.fin _)).2 (by norm_num), ((Is.fin _).le_iff Is.one).2 (by norm_num)⟩, rfl⟩
  exact ⟨_, h, ((C254_discrete (Is.fin (1 / 4)) (ordinary_of (by norm_num) (by norm_num)) (ordinary_of (by norm_num) (by norm_num))).1 _ h).2⟩
example : ∃ d, BetaBinomial.new 5 (fin 2) (fin 7) = .ok d ∧ ∃ m v, HasMeanVarD (betaBinPMF 5 2 7) (fun k => (k : ℝ)) m v ∧ RelClose d.mean m (1 / 2 ^ 46) := by
  have h : BetaBinomial.new 5 (fin 2) (fin 7) = .ok (BetaBinomial.fromParams 5 (fin 2) (fin 7)) :=
    BetaBinomial.new_ok.2 ⟨lt_of_pos (by norm_num) (Is.fin _), lt_of_pos (by norm_num) (Is.fin _), rfl⟩
  exact ⟨_, h, C254_beta_binomial_partial h (by norm_num) (by norm_num) (Is.fin _) (Is.fin _) (ordinary_of (by norm_num) (by norm_num)) (ordinary_of (by norm_num) (by norm_num))⟩
/-- the violated cases are accepted by the constructors -/
example : (∃ d, BetaDist.new (fin (2 ^ 400)) (fin (2 ^ 400)) = .ok d) ∧ (∃ d, Pareto.new (fin (2 ^ 600)) (fin (2 ^ 600)) = .ok d) ∧
    (∃ d, Triangular.new (fin 1) (fin (1 / 2 ^ 60)) (fin (1 / 2 ^ 60)) = .ok d) ∧ ∃ d, BetaBinomial.new 5 (fin 1) (fin (1 / 2 ^ 60)) = .ok d :=
  ⟨⟨_, BetaDist.new_ok.2 ⟨lt_of_pos (by positivity) (Is.fin _), lt_of_pos (by positivity) (Is.fin _), rfl⟩⟩,
    ⟨_, Pareto.new_ok.2 ⟨lt_of_pos (by positivity) (Is.fin _), rfl⟩⟩,
    ⟨_, Triangular.new_ok.2 ⟨lt_of_pos (by positivity) (Is.fin _), lt_of_pos (by positivity) (Is.fin _), rfl⟩⟩,
    ⟨_, BetaBinomial.new_ok.2 ⟨lt_of_pos (by norm_num) (Is.fin _), lt_of_pos (by positivity) (Is.fin _), rfl⟩⟩⟩

end
end Rstat
