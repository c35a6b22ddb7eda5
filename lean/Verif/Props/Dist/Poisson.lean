import Verif.Model.Dist.Poisson
import Verif.Props.Dist.Geometric
import Verif.Props.Dist.Bernoulli
import Verif.Props.Utils
import Mathlib.Analysis.Real.Pi.Bounds

/-! Properties C82–C84, C125: the Poisson law. -/
set_option linter.unusedSectionVars false
namespace Rstat
open F64 Consts Spec

theorem Poisson.new_ok [FP] {a : F64} {d : Poisson} : Poisson.new a = .ok d ↔ 0 < a ∧ d = ⟨a⟩ := by
  simp only [Poisson.new, exc_bind_ok, Rate.new_ok]
  constructor
  · rintro ⟨_, ⟨h0, rfl⟩, h⟩; exact ⟨h0, by cases h; rfl⟩
  · rintro ⟨h0, rfl⟩; exact ⟨_, ⟨h0, rfl⟩, rfl⟩

/-- every Poisson mass at a positive count is at most 1/2 -/
theorem pois_le_half {l : ℝ} (hl : 0 < l) {k : ℕ} (hk : 0 < k) : poisPMF l k ≤ 1 / 2 := by
  have hk' : (0:ℝ) < k := by exact_mod_cast hk
  have h1 : poisPMF l k ≤ poisPMF k k := by
    have := pow_le_mle hl.le 1 k one_pos
    rw [Nat.cast_one, div_one, one_mul] at this
    unfold poisPMF
    refine div_le_div_of_nonneg_right ?_ (by positivity)
    calc l ^ k * Real.exp (-l) ≤ (k : ℝ) ^ k * Real.exp (l - k) * Real.exp (-l) :=
          mul_le_mul_of_nonneg_right this (Real.exp_pos _).le
      _ = (k : ℝ) ^ k * Real.exp (-k) := by rw [mul_assoc, ← Real.exp_add]; congr 2; ring
  obtain ⟨j, rfl⟩ := Nat.exists_eq_add_of_le' hk
  have h2 : poisPMF ((j + 1 : ℕ) : ℝ) (j + 1) = poisPMF ((j + 1 : ℕ) : ℝ) j := by
    have := pois_succ (l := ((j + 1 : ℕ) : ℝ)) j
    push_cast at this hk' ⊢
    exact mul_left_cancel₀ hk'.ne' this
  have h3 := sum_le_hasSum (Finset.range (j + 2)) (fun i _ => pois_nonneg hk'.le i) (pois_one (l := ((j + 1 : ℕ) : ℝ)))
  rw [Finset.sum_range_succ, Finset.sum_range_succ] at h3
  have h4 := Finset.sum_nonneg (s := Finset.range j) (fun i _ => pois_nonneg hk'.le i)
  linarith

section
variable [FP] [FP.Exact] {a : F64} {l : ℝ} {d : Poisson}

theorem Poisson.pos (h : Poisson.new a = .ok d) (ha : a.Is l) : 0 < l := by
  obtain ⟨h0, rfl⟩ := Poisson.new_ok.1 h
  exact (Is.zero.lt_iff ha).1 h0
theorem Poisson.lambda_is (h : Poisson.new a = .ok d) (ha : a.Is l) : d.lambda.Is l := by
  obtain ⟨h0, rfl⟩ := Poisson.new_ok.1 h
  exact ha

theorem logFact_close (pr : Profile) (n : ℕ) (hn : n < 2 ^ 64 - 1) :
    ∃ (b : F64) (v : ℝ), logFactorialStirling pr n = .ok b ∧ b.Is v ∧ |v - Real.log n.factorial| ≤ 1 / 10 ^ 6 := by
  rcases le_or_gt n 254 with h | h
  · obtain ⟨b, v, h1, h2, h3⟩ := C30_table pr n h
    exact ⟨b, v, h1, h2, h3.trans (by norm_num)⟩
  · obtain ⟨b, v, h1, h2, _, _, h3⟩ := C30_stirling pr n h hn
    exact ⟨b, v, h1, h2, h3.le⟩

theorem logFact_zero (pr : Profile) : ∃ b : F64, logFactorialStirling pr 0 = .ok b ∧ b.Is 0 := by
  refine ⟨F64.lit ((0:ℕ) / 10 ^ 15), ?_, (Is.lit _).congr (by norm_num)⟩
  unfold logFactorialStirling
  rw [if_neg (by norm_num)]; rfl

theorem pois_log {l : ℝ} (hl : 0 < l) (k : ℕ) :
    Real.log (poisPMF l k) = k * Real.log l - l - Real.log k.factorial := by
  unfold poisPMF
  rw [Real.log_div (by positivity) (by positivity), Real.log_mul (by positivity) (by positivity), Real.log_pow, Real.log_exp]
  ring

/-- the logarithm of the mass is computed within 1e-6 -/
theorem Poisson.logPmf_close (h : Poisson.new a = .ok d) (ha : a.Is l) (pr : Profile) (k : ℕ) (hk : k < 2 ^ 64 - 1) :
    ∃ b y, d.logPmf pr k = .ok b ∧ b.Is y ∧ |y - Real.log (poisPMF l k)| ≤ 1 / 10 ^ 6 := by
  have hl := Poisson.pos h ha
  have hd := Poisson.lambda_is h ha
  obtain ⟨b, v, h1, h2, h3⟩ := logFact_close pr k hk
  refine ⟨_, k * Real.log l - l - v, by unfold Poisson.logPmf; rw [h1]; rfl,
    (((Is.ofNat k).mul (hd.ln hl)).sub hd).sub h2, ?_⟩
  rw [pois_log hl, abs_sub_comm]
  rw [show (k * Real.log l - l - Real.log k.factorial) - (k * Real.log l - l - v) = v - Real.log k.factorial by ring]
  exact h3

theorem exp_sub_one_small {x : ℝ} (hx : |x| ≤ 1 / 10 ^ 6) : |Real.exp x - 1| ≤ 2 / 10 ^ 6 := by
  have := Real.abs_exp_sub_one_le (x := x) (hx.trans (by norm_num))
  linarith [show 2 * (1 / 10 ^ 6 : ℝ) = 2 / 10 ^ 6 by norm_num]

/-- C82: the accepted rates are the positive ones; `pmf(k)` never panics for k < u64::MAX, is a valid probability and is
the Poisson mass up to a relative error of 2e-6 (the accuracy of the ln k! table and Stirling series); mean = variance =
rate and the skewness are those of the law. -/
theorem C82_poisson (h : Poisson.new a = .ok d) (ha : a.Is l) :
    0 < l ∧ IsPMF (poisPMF l) ∧
    (∀ pr k, k < 2 ^ 64 - 1 → ∃ r x, d.pmf pr k = .ok r ∧ r.val.Is x ∧ r.isValid ∧
      |x - poisPMF l k| ≤ 2 / 10 ^ 6 * poisPMF l k) ∧
    (∃ m v, d.mean.Is m ∧ d.variance.Is v ∧ HasMeanVarD (poisPMF l) (fun k => (k : ℝ)) m v) ∧
    (∃ s, d.skewness.Is s ∧ HasSkewD (poisPMF l) (fun k => (k : ℝ)) s) := by
  have hl := Poisson.pos h ha
  have hd := Poisson.lambda_is h ha
  refine ⟨hl, pois_pmf hl.le, fun pr k hk => ?_, ⟨l, l, hd, hd, pois_meanVar⟩, _, ?_, pois_skew hl⟩
  · have hP := pois_pos hl k
    obtain ⟨b, y, h1, h2, h3⟩ := Poisson.logPmf_close h ha pr k hk
    have he : Real.exp y = Real.exp (y - Real.log (poisPMF l k)) * poisPMF l k := by
      rw [Real.exp_sub, Real.exp_log hP]; field_simp
    have herr : |Real.exp y - poisPMF l k| ≤ 2 / 10 ^ 6 * poisPMF l k := by
      rw [he, ← sub_one_mul, abs_mul, abs_of_pos hP]
      exact mul_le_mul_of_nonneg_right (exp_sub_one_small h3) hP.le
    refine ⟨⟨b.exp⟩, Real.exp y, by unfold Poisson.pmf; rw [h1]; rfl, h2.exp,
      ⟨(h2.exp.le_iff Is.one).2 ?_, (Is.zero.le_iff h2.exp).2 (Real.exp_pos _).le⟩, herr⟩
    rcases Nat.eq_zero_or_pos k with rfl | hk0
    · obtain ⟨b', hb', hz⟩ := logFact_zero pr
      have hx : b.Is (-l) := by
        have e : d.logPmf pr 0 = .ok (F64.ofNat 0 * d.lambda.ln - d.lambda - b') := by
          unfold Poisson.logPmf; rw [hb']; rfl
        rw [e] at h1; cases h1
        exact Is.congr ((((Is.ofNat 0).mul (hd.ln hl)).sub hd).sub hz) (by simp)
      rw [h2.eq hx]
      exact Real.exp_le_one_iff.2 (by linarith)
    · have h5 := pois_le_half hl hk0
      have := (abs_le.1 herr).2
      have h6 : 2 / 10 ^ 6 * poisPMF l k ≤ 2 / 10 ^ 6 * (1 / 2) := mul_le_mul_of_nonneg_left h5 (by norm_num)
      have h7 : (2 / 10 ^ 6 * (1 / 2) : ℝ) ≤ 1 / 2 := by norm_num
      linarith
  · unfold Poisson.skewness
    refine Is.congr (hd.powf ONE_HALF_is.neg hl) ?_
    rw [Real.rpow_neg hl.le, ← Real.sqrt_eq_rpow, one_div]

/-- C83: convolution never fails and returns the Poisson law of the sum. -/
theorem C83_poisson_convolve {b : F64} {m : ℝ} {e : Poisson} (h1 : Poisson.new a = .ok d) (ha : a.Is l)
    (h2 : Poisson.new b = .ok e) (hb : b.Is m) :
    ∃ D, d.convolve e = .ok D ∧ Poisson.new (a + b) = .ok D ∧ (a + b).Is (l + m) ∧
      convPMF (poisPMF l) (poisPMF m) = poisPMF (l + m) ∧
      ∀ pr k, k < 2 ^ 64 - 1 → ∃ r x, D.pmf pr k = .ok r ∧ r.val.Is x ∧
        |x - convPMF (poisPMF l) (poisPMF m) k| ≤ 2 / 10 ^ 6 * convPMF (poisPMF l) (poisPMF m) k := by
  have hl := Poisson.pos h1 ha
  have hm := Poisson.pos h2 hb
  have hs : (a + b).Is (l + m) := ha.add hb
  have hn : Poisson.new (a + b) = .ok ⟨a + b⟩ := Poisson.new_ok.2 ⟨(Is.zero.lt_iff hs).2 (by positivity), rfl⟩
  obtain ⟨_, rfl⟩ := Poisson.new_ok.1 h1
  obtain ⟨_, rfl⟩ := Poisson.new_ok.1 h2
  refine ⟨⟨a + b⟩, rfl, hn, hs, pois_conv l m, fun pr k hk => ?_⟩
  rw [pois_conv]
  obtain ⟨r, x, h3, h4, _, h5⟩ := (C82_poisson hn hs).2.2.1 pr k hk
  exact ⟨r, x, h3, h4, h5⟩

/-! ### C84 -/
theorem mapM_ok {α β ε : Type} (f : α → Except ε β) (P : α → β → Prop) : ∀ (xs : List α),
    (∀ x ∈ xs, ∃ y, f x = .ok y ∧ P x y) → ∃ ys, xs.mapM f = .ok ys ∧ List.Forall₂ P xs ys
  | [], _ => ⟨[], rfl, .nil⟩
  | x :: xs, hx => by
    obtain ⟨y, h1, h2⟩ := hx x (by simp)
    obtain ⟨ys, h3, h4⟩ := mapM_ok f P xs fun x hx' => hx x (by simp [hx'])
    exact ⟨y :: ys, by rw [List.mapM_cons, h1, h3]; rfl, .cons h2 h4⟩

theorem pois_logLik {l : ℝ} (hl : 0 < l) (xs : List ℕ) : logLik (poisPMF l) xs =
    -(xs.length : ℝ) * l + (xs.map fun k : ℕ => Real.log l * k - Real.log k.factorial).sum := by
  unfold logLik
  induction xs with
  | nil => simp
  | cons k xs ih => rw [List.map_cons, List.sum_cons, ih, pois_log hl, List.map_cons, List.sum_cons, List.length_cons]; push_cast; ring

/-- C84: `log_likelihood` is the sum of the log masses, within 1e-6 per observation, and does not panic on counts below
u64::MAX. -/
theorem C84_poisson_log_likelihood (h : Poisson.new a = .ok d) (ha : a.Is l) (pr : Profile) (xs : List ℕ)
    (hx : ∀ x ∈ xs, x < 2 ^ 64 - 1) :
    ∃ b y, d.logLikelihood pr xs = .ok b ∧ b.Is y ∧ |y - logLik (poisPMF l) xs| ≤ xs.length / 10 ^ 6 := by
  have hl := Poisson.pos h ha
  have hd := Poisson.lambda_is h ha
  obtain ⟨ys, h1, h2⟩ := mapM_ok (fun k => do
      let lf ← logFactorialStirling pr k
      .ok (d.lambda.ln * F64.ofNat k - lf)) (fun k (y : F64) => ∃ v : ℝ, y.Is (Real.log l * k - v) ∧ |v - Real.log k.factorial| ≤ 1 / 10 ^ 6)
    xs (fun k hk => by
      obtain ⟨b, v, e1, e2, e3⟩ := logFact_close pr k (hx k hk)
      exact ⟨_, by rw [e1]; rfl, v, ((hd.ln hl).mul (Is.ofNat k)).sub e2, e3⟩)
  obtain ⟨rs, h3, h4⟩ : ∃ rs : List ℝ, List.Forall₂ Is ys rs ∧
      |rs.sum - (xs.map fun k : ℕ => Real.log l * k - Real.log k.factorial).sum| ≤ xs.length / 10 ^ 6 := by
    clear h1 hx
    induction h2 with
    | nil => exact ⟨[], .nil, by simp⟩
    | cons hy _ ih =>
      obtain ⟨v, e1, e2⟩ := hy
      obtain ⟨rs, e3, e4⟩ := ih
      refine ⟨_ :: rs, .cons e1 e3, ?_⟩
      simp only [List.map_cons, List.sum_cons, List.length_cons]
      rw [abs_le] at *
      push_cast
      rw [add_div]
      constructor <;> linarith
  refine ⟨_, -(xs.length : ℝ) * l + rs.sum, by unfold Poisson.logLikelihood; simp only [h1]; rfl,
    ((Is.ofNat _).neg.mul hd).add (Is.sum h3), ?_⟩
  rw [pois_logLik hl]
  rw [add_sub_add_left_eq_sub]; exact h4

/-- C84: the log-likelihood of a concatenation is the sum (of the ideal values the code approximates). -/
theorem C84_poisson_additive (l : ℝ) (xs ys : List ℕ) :
    logLik (poisPMF l) (xs ++ ys) = logLik (poisPMF l) xs + logLik (poisPMF l) ys := by simp [logLik]

theorem sumU64_ok (pr : Profile) (xs : List ℕ) : ∀ acc, acc + xs.sum < 2 ^ 64 →
    xs.foldlM (uadd pr) acc = .ok (acc + xs.sum) := by
  induction xs with
  | nil => intro acc _; rfl
  | cons x xs ih =>
    intro acc h
    rw [List.sum_cons] at h
    have : uadd pr acc x = .ok (acc + x) := uadd_ok (by unfold U64; omega)
    rw [List.foldlM_cons, this, exc_ok_bind, ih _ (by omega), List.sum_cons, add_assoc]

theorem pois_logLik_deriv {l : ℝ} (hl : 0 < l) (xs : List ℕ) :
    HasDerivAt (fun t => logLik (poisPMF t) xs) ((xs.sum : ℝ) / l - xs.length) l := by
  induction xs with
  | nil => simpa [logLik] using hasDerivAt_const l (0:ℝ)
  | cons k xs ih =>
    refine HasDerivAt.congr_deriv (f := fun t => logLik (poisPMF t) (k :: xs)) ((pois_hasDeriv hl k).add ih) ?_
    simp only [List.sum_cons, List.length_cons]; push_cast; ring

/-- C84 (violated): `score` is the derivative of the log-likelihood only for the empty sample: the sign of the sample
size is wrong. -/
theorem C84_poisson_score_violated (h : Poisson.new a = .ok d) (ha : a.Is l) (pr : Profile) (xs : List ℕ)
    (hx : xs.sum < 2 ^ 64) :
    ∃ s, d.score pr xs = .ok s ∧ s.Is (deriv (fun t => logLik (poisPMF t) xs) l + 2 * xs.length) ∧
      (s.Is (deriv (fun t => logLik (poisPMF t) xs) l) ↔ xs = []) := by
  have hl := Poisson.pos h ha
  have hd := Poisson.lambda_is h ha
  have hs := sumU64_ok pr xs 0 (by omega)
  rw [zero_add] at hs
  have hv : (F64.ofNat xs.length + F64.ofNat xs.sum / d.lambda).Is (deriv (fun t => logLik (poisPMF t) xs) l + 2 * xs.length) := by
    rw [(pois_logLik_deriv hl xs).deriv]
    exact Is.congr ((Is.ofNat _).add ((Is.ofNat _).div hd hl.ne')) (by ring)
  refine ⟨_, by unfold Poisson.score Poisson.sumU64; rw [hs]; rfl, hv, fun hc => ?_, ?_⟩
  · have := hc.eq hv
    have h2 : (xs.length : ℝ) = 0 := by linarith
    exact List.length_eq_zero_iff.1 (by exact_mod_cast h2)
  · rintro rfl; exact hv.congr (by simp)

/-- C84 (what holds): the score of the empty sample is 0. -/
theorem C84_poisson_score_partial (h : Poisson.new a = .ok d) (ha : a.Is l) (pr : Profile) :
    ∃ s, d.score pr [] = .ok s ∧ s.Is (deriv (fun t => logLik (poisPMF t) []) l) := by
  obtain ⟨s, h1, _, h2⟩ := C84_poisson_score_violated h ha pr [] (by simp)
  exact ⟨s, h1, h2.2 rfl⟩

theorem pois_prod {l : ℝ} (xs : List ℕ) : (xs.map (poisPMF l)).prod =
    l ^ xs.sum * Real.exp (-(xs.length * l)) / ((xs.map Nat.factorial).prod : ℕ) := by
  induction xs with
  | nil => simp
  | cons k xs ih =>
    simp only [List.map_cons, List.prod_cons, List.sum_cons, List.length_cons, ih]
    unfold poisPMF
    push_cast
    rw [pow_add, show -(((xs.length : ℝ) + 1) * l) = -l + -(xs.length * l) by ring, Real.exp_add]
    field_simp

theorem foldl_is (xs : List ℕ) : ∀ (acc : F64) (s : ℝ), acc.Is s →
    (xs.foldl (fun acc x => acc + F64.ofNat x) acc).Is (s + xs.sum) := by
  induction xs with
  | nil => intro acc s h; simpa using h
  | cons x xs ih =>
    intro acc s h
    rw [List.foldl_cons]
    refine (ih _ _ (h.add (Is.ofNat x))).congr ?_
    rw [List.sum_cons]; push_cast; ring

/-- C84: `fit_mle` of data with a positive total returns the sample mean, which maximises the likelihood over all
positive rates; empty and all-zero data are refused. -/
theorem C84_poisson_mle (xs : List ℕ) :
    (0 < xs.sum → ∃ d q, Poisson.fitMle xs = .ok d ∧ d.lambda.Is q ∧ q = (xs.sum : ℝ) / xs.length ∧
      ∀ r, 0 < r → (xs.map (poisPMF r)).prod ≤ (xs.map (poisPMF q)).prod) ∧
    (xs.sum = 0 → ∃ e, Poisson.fitMle xs = .error e) := by
  have hf := foldl_is xs 0 0 Is.zero
  rw [zero_add] at hf
  constructor
  · intro hs
    have hn : 0 < xs.length := by
      rcases xs with _ | _
      · simp at hs
      · simp
    have hn' : (0:ℝ) < xs.length := by exact_mod_cast hn
    have hs' : (0:ℝ) < xs.sum := by exact_mod_cast hs
    have hq := hf.div (Is.ofNat xs.length) hn'.ne'
    refine ⟨_, _, Poisson.new_ok.2 ⟨(Is.zero.lt_iff hq).2 (by positivity), rfl⟩, hq, rfl, fun r hr => ?_⟩
    rw [pois_prod, pois_prod]
    refine div_le_div_of_nonneg_right ?_ (by positivity)
    calc r ^ xs.sum * Real.exp (-(xs.length * r))
        ≤ ((xs.sum : ℝ) / xs.length) ^ xs.sum * Real.exp (xs.length * r - xs.sum) * Real.exp (-(xs.length * r)) :=
          mul_le_mul_of_nonneg_right (pow_le_mle hr.le _ _ hn) (Real.exp_pos _).le
      _ = ((xs.sum : ℝ) / xs.length) ^ xs.sum * Real.exp (-(xs.length * ((xs.sum : ℝ) / xs.length))) := by
          rw [mul_assoc, ← Real.exp_add]; congr 2; field_simp; ring
  · intro hs
    have hz : (xs.foldl (fun acc x => acc + F64.ofNat x) (0 : F64)).Is 0 := hf.congr (by exact_mod_cast hs)
    have hnot : ¬ (0 : F64) < (xs.foldl (fun acc x => acc + F64.ofNat x) (0 : F64)) / F64.ofNat xs.length := by
      rcases Nat.eq_zero_or_pos xs.length with h0 | h0
      · have e0 : F64.ofNat xs.length = fin 0 := by rw [h0]; unfold F64.ofNat; rw [round_exact]; simp
        rw [e0]
        have : ∀ b : F64, b.Is 0 → b / fin 0 = nan := by
          rintro b (rfl | ⟨rfl, _⟩)
          · show F64.div _ _ = _; simp [F64.div, F64.isInf, F64.toReal]
          · show F64.div _ _ = _; simp [F64.div, F64.isInf, F64.toReal]
        rw [this _ hz]; exact F64.not_lt_nan _
      · have hn' : (0:ℝ) < xs.length := by exact_mod_cast h0
        rw [Is.zero.lt_iff (hz.div (Is.ofNat _) hn'.ne')]; simp
    unfold Poisson.fitMle
    rcases hr : Poisson.new ((xs.foldl (fun acc x => acc + F64.ofNat x) (0 : F64)) / F64.ofNat xs.length) with e | d
    · exact ⟨e, rfl⟩
    · exact absurd (Poisson.new_ok.1 hr).1 hnot

/-! ### C125 -/
/-- C125 (violated): `kurtosis()` is 3 less than the fourth standardised moment for every rate (it is the excess), and
`excess_kurtosis()` is 6 less. -/
theorem C125_poisson_kurtosis_violated (h : Poisson.new a = .ok d) (ha : a.Is l) :
    ∃ κ, HasKurtD (poisPMF l) (fun k => (k : ℝ)) κ ∧ d.kurtosis.Is (κ - 3) ∧ d.excessKurtosis.Is (κ - 6) ∧
      ¬ d.kurtosis.Is κ ∧ ¬ d.excessKurtosis.Is (κ - 3) := by
  have hl := Poisson.pos h ha
  have hd := Poisson.lambda_is h ha
  have hk : d.kurtosis.Is (3 + 1 / l - 3) := by
    unfold Poisson.kurtosis; exact Is.congr (Is.one.div hd hl.ne') (by ring)
  have he : d.excessKurtosis.Is (3 + 1 / l - 6) := by
    unfold Poisson.excessKurtosis; exact Is.congr (hk.sub (Is.num 3)) (by norm_num; ring)
  refine ⟨_, pois_kurt hl, hk, he, fun hc => ?_, fun hc => ?_⟩
  · have := hc.eq hk; linarith
  · have := hc.eq he; linarith

/-- C125 (violated): `fisher_information()` is the Fisher information about the rate only when the rate is 1. -/
theorem C125_poisson_fisher_violated (h : Poisson.new a = .ok d) (ha : a.Is l) :
    d.fisherInformation.Is (fisherD poisPMF l) ↔ l = 1 := by
  have hl := Poisson.pos h ha
  have hd : d.fisherInformation.Is l := Poisson.lambda_is h ha
  rw [pois_fisher hl]
  constructor
  · intro hc
    have := hc.eq hd
    rw [div_eq_iff hl.ne'] at this
    nlinarith
  · rintro rfl; exact hd.congr (by norm_num)

theorem Poisson.median_is (h : Poisson.new a = .ok d) (ha : a.Is l) :
    d.median.Is ⌊l + 1 / 3 - 2 / 100 / l⌋ := by
  have hl := Poisson.pos h ha
  have hd := Poisson.lambda_is h ha
  unfold Poisson.median
  exact ((hd.add ONE_THIRD_is).sub ((Is.lit _).div hd hl.ne')).floor

/-- C125 (violated): for every rate up to 1/20 the median returned is negative, and for every rate in (ln 2, 0.695] it
is 0 although 0 is not a median. -/
theorem C125_poisson_median_violated (h : Poisson.new a = .ok d) (ha : a.Is l)
    (hr : l ≤ 1 / 20 ∨ (Real.log 2 < l ∧ l ≤ 0.695)) :
    ∃ m, d.median.Is m ∧ ¬ IsMedianD (poisPMF l) (fun k => (k : ℝ)) m := by
  have hl := Poisson.pos h ha
  refine ⟨_, Poisson.median_is h ha, ?_⟩
  rcases hr with h1 | ⟨h1, h2⟩
  · have : l + 1 / 3 - 2 / 100 / l < 0 := by
      have : 2 / 100 / (1 / 20) ≤ 2 / 100 / l := div_le_div_of_nonneg_left (by norm_num) hl h1
      norm_num at this ⊢; linarith
    have h2 : ⌊l + 1 / 3 - 2 / 100 / l⌋ < 0 := Int.floor_lt.2 (by exact_mod_cast this)
    exact not_medianD_neg (by exact_mod_cast h2)
  · have hl2 := Real.log_two_gt_d9
    have e : ⌊l + 1 / 3 - 2 / 100 / l⌋ = 0 := by
      rw [Int.floor_eq_zero_iff]
      have b1 : 2 / 100 / 0.695 ≤ 2 / 100 / l := div_le_div_of_nonneg_left (by norm_num) hl h2
      have b2 : 2 / 100 / l ≤ 2 / 100 / 0.69 := div_le_div_of_nonneg_left (by norm_num) (by norm_num) (by linarith)
      constructor <;> norm_num at b1 b2 ⊢ <;> linarith
    rw [e, Int.cast_zero, medianD_nat pois_one le_rfl]
    rintro ⟨h3, _⟩
    simp [poisPMF] at h3
    have : Real.exp (-l) < Real.exp (-Real.log 2) := Real.exp_lt_exp.2 (by linarith)
    rw [Real.exp_neg (Real.log 2), Real.exp_log (by norm_num)] at this
    linarith

/-- C125 (what holds): for rates in [0.052, ln 2] the median is right (0); in general it is an integer within
[rate - 2/3 - 0.02/rate, rate + 1/3 - 0.02/rate]. Missing: correctness for rates above 0.695. -/
theorem C125_poisson_median_partial (h : Poisson.new a = .ok d) (ha : a.Is l) :
    (∃ m : ℤ, d.median.Is m ∧ l - 2 / 3 - 2 / 100 / l ≤ m ∧ m ≤ l + 1 / 3 - 2 / 100 / l) ∧
    (0.052 ≤ l → l ≤ Real.log 2 → ∃ m, d.median.Is m ∧ IsMedianD (poisPMF l) (fun k => (k : ℝ)) m) := by
  have hl := Poisson.pos h ha
  have hm := Poisson.median_is h ha
  refine ⟨⟨_, hm, ?_, Int.floor_le _⟩, fun h1 h2 => ⟨_, hm, ?_⟩⟩
  · have := Int.lt_floor_add_one (l + 1 / 3 - 2 / 100 / l); linarith
  · have hl2 := Real.log_two_lt_d9
    have e : ⌊l + 1 / 3 - 2 / 100 / l⌋ = 0 := by
      rw [Int.floor_eq_zero_iff]
      have b1 : 2 / 100 / 0.6931471808 ≤ 2 / 100 / l := div_le_div_of_nonneg_left (by norm_num) hl (by linarith)
      have b2 : 2 / 100 / l ≤ 2 / 100 / 0.052 := div_le_div_of_nonneg_left (by norm_num) (by norm_num) (by linarith)
      constructor <;> norm_num at b1 b2 ⊢ <;> linarith
    rw [e, Int.cast_zero, medianD_nat pois_one le_rfl]
    simp [poisPMF]
    refine ⟨?_, by norm_num⟩
    have : Real.exp (-Real.log 2) ≤ Real.exp (-l) := Real.exp_le_exp.2 (by linarith)
    rw [Real.exp_neg (Real.log 2), Real.exp_log (by norm_num)] at this
    exact this

/-- C125: `modes()` of every rate below 2^64 is a most likely count ... -/
theorem C125_poisson_modes_partial (h : Poisson.new a = .ok d) (ha : a.Is l) (hb : l < 2 ^ 64) :
    ∃ k, d.modes = [k] ∧ IsModeD (poisPMF l) k := by
  have hl := Poisson.pos h ha
  have hd := Poisson.lambda_is h ha
  refine ⟨⌊l⌋₊, ?_, pois_mode hl⟩
  unfold Poisson.modes
  rw [hd.eq_fin hl.ne']
  congr 1
  show (fin (⌊l⌋ : ℝ)).toU64 = _
  unfold F64.toU64
  have h0 : 0 ≤ ⌊l⌋ := Int.floor_nonneg.2 hl.le
  have h0' : ¬ ((⌊l⌋ : ℝ) < 0) := not_lt.2 (by exact_mod_cast h0)
  simp only [h0', if_false]
  have h2 : ⌊(⌊l⌋ : ℝ)⌋₊ = ⌊l⌋₊ := by
    rw [← Int.floor_toNat, Int.floor_intCast, Int.floor_toNat]
  rw [h2]
  have h3 : ⌊l⌋₊ < 2 ^ 64 := (Nat.floor_lt hl.le).2 (by exact_mod_cast hb)
  refine min_eq_left ?_
  unfold U64; omega

/-- C125 (violated): ... but for every positive integer rate (below 2^64) a second mode, rate - 1, is missing. -/
theorem C125_poisson_modes_violated {n : ℕ} (hn : 0 < n) (hb : n < 2 ^ 64) (h : Poisson.new a = .ok d) (ha : a.Is n) :
    n - 1 ∉ d.modes ∧ IsModeD (poisPMF n) (n - 1) := by
  have hl := Poisson.pos h ha
  have hd := Poisson.lambda_is h ha
  obtain ⟨k, hk, _⟩ := C125_poisson_modes_partial h ha (by exact_mod_cast hb)
  have hm := pois_mode hl
  rw [Nat.floor_natCast] at hm
  obtain ⟨j, rfl⟩ := Nat.exists_eq_add_of_le' hn
  have h2 : poisPMF ((j + 1 : ℕ) : ℝ) (j + 1) = poisPMF ((j + 1 : ℕ) : ℝ) j := by
    have := pois_succ (l := ((j + 1 : ℕ) : ℝ)) j
    push_cast at this hl ⊢
    exact mul_left_cancel₀ hl.ne' this
  refine ⟨?_, fun i => ?_⟩
  · unfold Poisson.modes
    rw [hd.eq_fin hl.ne', List.mem_singleton]
    show ¬ (j + 1 - 1 = (fin (⌊((j + 1 : ℕ) : ℝ)⌋ : ℝ)).toU64)
    unfold F64.toU64
    have h0' : ¬ ((⌊((j + 1 : ℕ) : ℝ)⌋ : ℝ) < 0) := by rw [Int.floor_natCast]; exact not_lt.2 (by exact_mod_cast Nat.zero_le _)
    simp only [h0', if_false]
    have : ⌊(⌊((j + 1 : ℕ) : ℝ)⌋ : ℝ)⌋₊ = j + 1 := by rw [Int.floor_natCast, Int.cast_natCast, Nat.floor_natCast]
    rw [this, min_eq_left (by unfold U64; omega)]
    omega
  · rw [Nat.add_sub_cancel, ← h2]; exact hm i

/-- C125 (violated): for every rate up to 1/10 `shannon_entropy()` is negative, which no Shannon entropy is. -/
theorem C125_poisson_entropy_violated (h : Poisson.new a = .ok d) (ha : a.Is l) (hr : l ≤ 1 / 10) :
    ∃ e, d.shannonEntropy.Is e ∧ e < 0 ∧ ∀ H, HasEntropyD (poisPMF l) H → 0 ≤ H := by
  have hl := Poisson.pos h ha
  have hd := Poisson.lambda_is h ha
  have hpi := Real.pi_lt_d2
  have he1 := Real.exp_one_lt_d9
  have hpos : 0 < Real.pi * Real.exp 1 * 2 * l := by have := Real.pi_pos; positivity
  refine ⟨Real.log (Real.pi * Real.exp 1 * 2 * l) / 2 - 1 / 12 / l - 1 / 24 / l / l - 19 / 360 / l / l / l, ?_, ?_, ?_⟩
  · unfold Poisson.shannonEntropy
    exact (((((PI_E_2_is.mul hd).ln hpos).div (Is.num 2) (by norm_num)).sub (ONE_TWELTH_is.div hd hl.ne')).sub
      ((ONE_TWENTY_FOURTH_is.div hd hl.ne').div hd hl.ne')).sub
      (((NINETEEN_OVER_360_is.div hd hl.ne').div hd hl.ne').div hd hl.ne')
  · have h1 : Real.log (Real.pi * Real.exp 1 * 2 * l) ≤ 1 := by
      rw [Real.log_le_iff_le_exp hpos]
      have he0 := Real.exp_pos 1
      have hp0 := Real.pi_pos
      have : Real.pi * Real.exp 1 * 2 * l = Real.exp 1 * (Real.pi * 2 * l) := by ring
      rw [this]
      have h3 : Real.pi * 2 * l ≤ 1 := by nlinarith
      nlinarith
    have h2 : 1 / 12 / (1 / 10) ≤ 1 / 12 / l := div_le_div_of_nonneg_left (by norm_num) hl hr
    have h3 : 0 < 1 / 24 / l / l := by positivity
    have h4 : 0 < 19 / 360 / l / l / l := by positivity
    norm_num at h2 ⊢
    linarith
  · intro H hH
    refine hH.nonneg fun k => ?_
    have h0 := pois_nonneg hl.le k
    have h1 := le_hasSum (pois_one (l := l)) k fun i _ => pois_nonneg hl.le i
    have := mul_nonpos_of_nonneg_of_nonpos h0 (Real.log_nonpos h0 h1)
    linarith
end

section
attribute [local instance] exactFP exactFP_exact
theorem pois_example (l : ℝ) (h : 0 < l) : ∃ d, Poisson.new (fin l) = .ok d :=
  ⟨_, Poisson.new_ok.2 ⟨(Is.zero.lt_iff (Is.fin _)).2 h, rfl⟩⟩
example : ∃ d r x, Poisson.new (fin 2) = .ok d ∧ d.pmf .debug 1 = .ok r ∧ r.val.Is x ∧
    |x - 2 * Real.exp (-2)| ≤ 2 / 10 ^ 6 * (2 * Real.exp (-2)) := by
  obtain ⟨d, hd⟩ := pois_example 2 (by norm_num)
  obtain ⟨r, x, h1, h2, _, h3⟩ := (C82_poisson hd (Is.fin _)).2.2.1 .debug 1 (by norm_num)
  exact ⟨d, r, x, hd, h1, h2, by simpa [poisPMF] using h3⟩
example : ∃ d, Poisson.fitMle [1, 4, 0] = .ok d ∧ d.lambda.Is (5 / 3) := by
  obtain ⟨d, q, h1, h2, h3, _⟩ := (C84_poisson_mle [1, 4, 0]).1 (by norm_num)
  exact ⟨d, h1, h2.congr (by rw [h3]; norm_num)⟩
example : ∃ d m, Poisson.new (fin (1 / 100)) = .ok d ∧ d.median.Is m ∧
    ¬ IsMedianD (poisPMF (1 / 100)) (fun k => (k : ℝ)) m := by
  obtain ⟨d, hd⟩ := pois_example (1 / 100) (by norm_num)
  obtain ⟨m, h1, h2⟩ := C125_poisson_median_violated hd (Is.fin _) (Or.inl (by norm_num))
  exact ⟨d, m, hd, h1, h2⟩
end
end Rstat
