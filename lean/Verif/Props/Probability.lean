import Verif.Lemmas.Probability
import Mathlib.Analysis.Complex.ExponentialBounds

/-!
# Properties C01-C11: probabilities and simplex vectors (src/probability.rs)

`F64.Is p r` reads "the f64 `p` is finite with real value `r`" (both zeros have value 0).
`[FP.Lawful]` = any correctly rounded arithmetic (binary64 is one: `binary64_lawful`).
`[FP.Exact]` = exact real arithmetic.
-/
namespace Rstat
open F64

/-- specification: `p` is a number in [0,1] -/
def Spec.InUnit (p : F64) : Prop := ∃ r : ℝ, p.Is r ∧ 0 ≤ r ∧ r ≤ 1

/-! ## C01 -/

/-- C01: `Probability::new` succeeds exactly on numbers in [0,1], for every f64 (incl. NaN, ±inf, -0.0). -/
theorem C01_new_accepts_iff [FP] (p : F64) :
    (∃ q, Probability.new p = .ok q) ↔ Spec.InUnit p := by
  unfold Probability.new Spec.InUnit
  rw [← unit_iff]
  split_ifs with h
  · exact ⟨fun _ => h, fun _ => ⟨_, rfl⟩⟩
  · exact ⟨fun ⟨_, h'⟩ => by simp at h', fun h' => absurd h' h⟩

/-- C01: the accepted probability holds the very same f64. -/
theorem C01_new_value [FP] (p : F64) (q : Probability) (h : Probability.new p = .ok q) : q.unwrap = p := by
  unfold Probability.new at h
  split_ifs at h with h'
  cases h; rfl

/-- C01: a refusal carries the offending value. -/
theorem C01_new_error [FP] (p : F64) (e : InvalidProbabilityError) (h : Probability.new p = .error e) :
    e.value = p ∧ ¬ Spec.InUnit p := by
  have hn : ¬ ∃ q, Probability.new p = .ok q := by rw [h]; simp
  rw [C01_new_accepts_iff] at hn
  refine ⟨?_, hn⟩
  unfold Probability.new at h
  split_ifs at h with h'
  cases h; rfl

/-- C01: `is_valid` agrees with the acceptance test. -/
theorem C01_is_valid_iff [FP] (q : Probability) : q.isValid ↔ Spec.InUnit q.unwrap := by
  unfold Probability.isValid Spec.InUnit
  rw [← unit_iff, and_comm]; rfl

example [FP] : ¬ Spec.InUnit F64.nan ∧ ¬ Spec.InUnit F64.pinf ∧ ¬ Spec.InUnit F64.ninf ∧
    Spec.InUnit F64.negZero ∧ Spec.InUnit (F64.fin (1 / 2)) ∧ ¬ Spec.InUnit (F64.fin 2) := by
  refine ⟨?_, ?_, ?_, ⟨0, Is.negZero, le_rfl, zero_le_one⟩, ⟨1 / 2, Is.fin _, by norm_num, by norm_num⟩, ?_⟩
  · rintro ⟨r, h, _⟩; rcases h with h | ⟨h, _⟩ <;> cases h
  · rintro ⟨r, h, _⟩; rcases h with h | ⟨h, _⟩ <;> cases h
  · rintro ⟨r, h, _⟩; rcases h with h | ⟨h, _⟩ <;> cases h
  · rintro ⟨r, h, h0, h1⟩
    have := (Is.fin 2).eq h; linarith

/-! ## C02 -/

/-- C02: checked operators succeed exactly when the IEEE result is in [0,1] and then return that result. -/
theorem C02_checked_ops [FP] (p q : Probability) (r : Probability) :
    (p.add q = .ok r ↔ r.val = p.val + q.val ∧ Spec.InUnit r.val) ∧
    (p.sub q = .ok r ↔ r.val = p.val - q.val ∧ Spec.InUnit r.val) ∧
    (p.div q = .ok r ↔ r.val = p.val / q.val ∧ Spec.InUnit r.val) ∧
    (p.rem q = .ok r ↔ r.val = p.val % q.val ∧ Spec.InUnit r.val) := by
  have key : ∀ x : F64, Probability.new x = .ok r ↔ r.val = x ∧ Spec.InUnit r.val := by
    intro x
    constructor
    · intro h
      have hv := C01_new_value x r h
      refine ⟨hv, ?_⟩
      have : r.val = x := hv
      rw [this]; exact (C01_new_accepts_iff x).1 ⟨r, h⟩
    · rintro ⟨rfl, hu⟩
      obtain ⟨q, hq⟩ := (C01_new_accepts_iff r.val).2 hu
      rw [hq]; congr 1
      exact Probability.ext (C01_new_value _ _ hq)
  exact ⟨key _, key _, key _, key _⟩

/-- C02: hence whatever the operands, a successful result is valid; and when the IEEE result is out of range the
operator reports an error rather than a value. -/
theorem C02_checked_ops_closed [FP] (p q r : Probability)
    (h : p.add q = .ok r ∨ p.sub q = .ok r ∨ p.div q = .ok r ∨ p.rem q = .ok r) : r.isValid := by
  rw [C01_is_valid_iff]
  obtain ⟨h1, h2, h3, h4⟩ := C02_checked_ops p q r
  rcases h with h | h | h | h
  · exact (h1.1 h).2
  · exact (h2.1 h).2
  · exact (h3.1 h).2
  · exact (h4.1 h).2

/-- C02 (non-vacuity): 1/2 + 1/4 succeeds, 3/4 + 1/2 and 0/0 fail, in exact arithmetic. -/
example [FP] [FP.Exact] :
    (∃ r, (Probability.mk (fin (1/2))).add ⟨fin (1/4)⟩ = .ok r) ∧
    (¬ ∃ r, (Probability.mk (fin (3/4))).add ⟨fin (1/2)⟩ = .ok r) ∧
    (¬ ∃ r, (Probability.mk (fin 0)).div ⟨fin 0⟩ = .ok r) := by
  refine ⟨?_, ?_, ?_⟩
  · refine (C01_new_accepts_iff _).2 ⟨_, (Is.fin _).add (Is.fin _), ?_, ?_⟩ <;> norm_num
  · rintro h
    obtain ⟨r, hr, _, h1⟩ := (C01_new_accepts_iff _).1 h
    have := hr.eq ((Is.fin _).add (Is.fin _)); rw [this] at h1; norm_num at h1
  · rintro h
    obtain ⟨r, hr, _, h1⟩ := (C01_new_accepts_iff _).1 h
    have : (fin 0 : F64) / fin 0 = nan := by show F64.div _ _ = _; simp [F64.div]
    rw [this] at hr
    rcases hr with h | ⟨h, _⟩ <;> cases h

/-! ## C03 -/

/-- C03: the product of two valid probabilities is valid, under every correctly rounded arithmetic. -/
theorem C03_mul_valid [FP] [FP.Lawful] (p q : Probability) (hp : p.isValid) (hq : q.isValid) :
    (p.mul q).isValid := by
  rw [C01_is_valid_iff] at *
  obtain ⟨r, hr, r0, r1⟩ := hp
  obtain ⟨s, hs, s0, s1⟩ := hq
  have h0 : 0 ≤ r * s := mul_nonneg r0 s0
  have h1 : r * s ≤ 1 := mul_le_one₀ r1 s0 s1
  refine ⟨FP.rnd (r * s), mul_is hr hs (not_huge_of_le 1 (by norm_num) ?_), rnd_nonneg h0, rnd_le_one h1⟩
  rw [abs_of_nonneg h0]; simpa using h1

/-- C03: the complement of a valid probability is valid. -/
theorem C03_not_valid [FP] [FP.Lawful] (p : Probability) (hp : p.isValid) : p.not.isValid := by
  rw [C01_is_valid_iff] at *
  obtain ⟨r, hr, r0, r1⟩ := hp
  have h0 : 0 ≤ 1 - r := by linarith
  have h1 : 1 - r ≤ 1 := by linarith
  refine ⟨FP.rnd (1 - r), sub_is Is.one hr (not_huge_of_le 1 (by norm_num) ?_), rnd_nonneg h0, rnd_le_one h1⟩
  rw [abs_of_nonneg h0]; simpa using h1

/-- C03: the product/complement hold the correctly rounded real product/complement. -/
theorem C03_values [FP] [FP.Lawful] (p q : Probability) (r s : ℝ) (hp : p.val.Is r) (hq : q.val.Is s)
    (hr : 0 ≤ r ∧ r ≤ 1) (hs : 0 ≤ s ∧ s ≤ 1) :
    (p.mul q).val.Is (FP.rnd (r * s)) ∧ p.not.val.Is (FP.rnd (1 - r)) := by
  have h0 : 0 ≤ r * s := mul_nonneg hr.1 hs.1
  have h1 : r * s ≤ 1 := mul_le_one₀ hr.2 hs.1 hs.2
  refine ⟨mul_is hp hq (not_huge_of_le 1 (by norm_num) ?_), sub_is Is.one hp (not_huge_of_le 1 (by norm_num) ?_)⟩
  · rw [abs_of_nonneg h0]; simpa using h1
  · rw [abs_of_nonneg (by linarith [hr.2])]; simp [hr.1]

example [FP] : (Probability.mk (fin (1/3))).isValid := by
  rw [C01_is_valid_iff]; exact ⟨1/3, Is.fin _, by norm_num, by norm_num⟩

/-! ## C04 -/

/-- C04: complement reverses the order. -/
theorem C04_not_antitone [FP] [FP.Lawful] (p q : Probability) (hp : p.isValid) (hq : q.isValid)
    (h : p.val ≤ q.val) : q.not.val ≤ p.not.val := by
  rw [C01_is_valid_iff] at *
  obtain ⟨r, hr, r0, r1⟩ := hp
  obtain ⟨s, hs, s0, s1⟩ := hq
  have hrs : r ≤ s := (hr.le_iff hs).1 h
  have e1 := (C03_values p q r s hr hs ⟨r0, r1⟩ ⟨s0, s1⟩).2
  have e2 := (C03_values q p s r hs hr ⟨s0, s1⟩ ⟨r0, r1⟩).2
  rw [e2.le_iff e1]
  exact FP.Lawful.rnd_mono (by linarith)

/-- C04: in exact arithmetic `!!p = p`. -/
theorem C04_not_not_exact [FP] [FP.Exact] (p : Probability) (r : ℝ) (hp : p.val.Is r) : p.not.not.val.Is r := by
  have h1 : p.not.val.Is (1 - r) := Is.one.sub hp
  exact (Is.one.sub h1 : p.not.not.val.Is (1 - (1 - r))).congr (by ring)

/-- C04: under any correctly rounded arithmetic `!!p` is within 2^-50 of `p`. -/
theorem C04_not_not_error [FP] [FP.Lawful] (p : Probability) (r : ℝ) (hp : p.val.Is r) (h0 : 0 ≤ r) (h1 : r ≤ 1) :
    ∃ s, p.not.not.val.Is s ∧ |s - r| ≤ 1 / 2 ^ 50 := by
  have e1 := (C03_values p p r r hp hp ⟨h0, h1⟩ ⟨h0, h1⟩).2
  have a0 : 0 ≤ FP.rnd (1 - r) := rnd_nonneg (by linarith)
  have a1 : FP.rnd (1 - r) ≤ 1 := rnd_le_one (by linarith)
  have e2 := (C03_values p.not p.not _ _ e1 e1 ⟨a0, a1⟩ ⟨a0, a1⟩).2
  refine ⟨_, e2, ?_⟩
  have b1 : |FP.rnd (1 - r) - (1 - r)| ≤ 1 / 2 ^ 51 :=
    step_err (by rw [abs_of_nonneg (by linarith)]; linarith)
  have b2 : |FP.rnd (1 - FP.rnd (1 - r)) - (1 - FP.rnd (1 - r))| ≤ 1 / 2 ^ 51 :=
    step_err (by rw [abs_of_nonneg (by linarith)]; linarith)
  rw [abs_le] at *
  have : (1:ℝ) / 2 ^ 50 = 1 / 2 ^ 51 + 1 / 2 ^ 51 := by norm_num
  constructor <;> linarith [b1.1, b1.2, b2.1, b2.2]

theorem rnd_one_sub_tiny : B64.rnd (1 - 1 / 2 ^ 60) = 1 := by
  have hlog : Int.log 2 |(1 - 1 / 2 ^ 60 : ℝ)| = -1 := by
    rw [abs_of_pos (by norm_num)]
    have h1 : (-1:ℤ) ≤ Int.log 2 (1 - 1 / 2 ^ 60 : ℝ) := by
      rw [← Int.zpow_le_iff_le_log (by norm_num) (by norm_num)]; norm_num
    have h2 : Int.log 2 (1 - 1 / 2 ^ 60 : ℝ) < 0 := by
      rw [← Int.lt_zpow_iff_log_lt (by norm_num) (by norm_num)]; norm_num
    omega
  have hu : B64.ulpExp (1 - 1 / 2 ^ 60) = -53 := by unfold B64.ulpExp; rw [hlog]; norm_num
  have hz : (2:ℝ) ^ (-53:ℤ) = 1 / 2 ^ 53 := by
    rw [zpow_neg]; norm_num
  unfold B64.rnd
  rw [hu, hz]
  have hfl : ⌊((1 - 1 / 2 ^ 60 : ℝ)) / (1 / 2 ^ 53)⌋ = 2 ^ 53 - 1 := by
    rw [Int.floor_eq_iff]; norm_num
  have : B64.rne ((1 - 1 / 2 ^ 60 : ℝ) / (1 / 2 ^ 53)) = 2 ^ 53 := by
    unfold B64.rne; rw [hfl]; norm_num
  rw [this]; norm_num

/-- C04 (violation of exact involution in real binary64): `!!p = 0` for `p = 2^-60`. -/
theorem C04_not_not_violated_binary64 :
    let _ := binary64
    let p : Probability := ⟨fin (1 / 2 ^ 60)⟩
    p.isValid ∧ p.not.not.val.Is 0 := by
  have := binary64_lawful
  refine @id (_ ∧ _) ?_
  let _ := binary64
  refine ⟨(C01_is_valid_iff _).2 ⟨1 / 2 ^ 60, Is.fin _, by norm_num, by norm_num⟩, ?_⟩
  have hp : (Probability.mk (fin (1 / 2 ^ 60))).val.Is (1 / 2 ^ 60 : ℝ) := Is.fin _
  have e1 := (C03_values _ _ _ _ hp hp ⟨by norm_num, by norm_num⟩ ⟨by norm_num, by norm_num⟩).2
  have : FP.rnd (1 - 1 / 2 ^ 60 : ℝ) = 1 := rnd_one_sub_tiny
  rw [this] at e1
  have e2 := (C03_values _ _ _ _ e1 e1 ⟨by norm_num, by norm_num⟩ ⟨by norm_num, by norm_num⟩).2
  rw [sub_self, rnd_zero] at e2
  exact e2

/-! ## C05 -/

/-- C05: acceptance test of `SimplexVector::new`; the accepted vector is the argument. `F64.sum` is the
left-to-right floating-point sum. -/
theorem C05_simplex_new_iff [FP] (ps : List F64) (v : SimplexVector) :
    SimplexVector.new ps = .ok v ↔
      v.ps = ps ∧ (∀ p ∈ ps, Spec.InUnit p) ∧ (F64.sum ps - 1).abs < F64.lit (1 / 100000) := by
  have hU : (∀ p ∈ ps, Spec.InUnit p) ↔ ∀ p ∈ ps, 0 ≤ p ∧ p ≤ 1 :=
    forall₂_congr fun p _ => (unit_iff p).symm
  rw [hU]
  unfold SimplexVector.new
  rcases sumLoop_dichotomy ps with h | ⟨as, p, bs, h1, h2, h3⟩
  · rw [sumLoop_ok ps 0 h]
    dsimp only
    split_ifs with ht
    · constructor
      · intro h'; cases h'; exact ⟨rfl, h, ht⟩
      · rintro ⟨h', _⟩; cases v; simp only at h'; subst h'; rfl
    · constructor
      · intro h'; cases h'
      · rintro ⟨_, _, h'⟩; exact absurd h' ht
  · rw [h1, sumLoop_error as bs p 0 h2 h3]
    constructor
    · intro h'; cases h'
    · rintro ⟨_, h', _⟩; exact absurd (h' p (by simp)) h3

/-- C05: otherwise the first out-of-range entry is reported. -/
theorem C05_simplex_new_bad_entry [FP] (as bs : List F64) (p : F64) (h : ∀ q ∈ as, Spec.InUnit q)
    (hp : ¬ Spec.InUnit p) : SimplexVector.new (as ++ p :: bs) = .error (.prob ⟨p⟩) := by
  unfold SimplexVector.new
  rw [sumLoop_error as bs p 0 (fun q hq => (unit_iff q).2 (h q hq)) (fun h' => hp ((unit_iff p).1 h'))]

/-- C05: with all entries in range but a bad sum, the whole array is reported. -/
theorem C05_simplex_new_bad_sum [FP] (ps : List F64) (h : ∀ p ∈ ps, Spec.InUnit p)
    (hs : ¬ (F64.sum ps - 1).abs < F64.lit (1 / 100000)) : SimplexVector.new ps = .error (.simplex ps) := by
  unfold SimplexVector.new
  rw [sumLoop_ok ps 0 (fun q hq => (unit_iff q).2 (h q hq))]
  exact if_neg hs

/-- C05 (non-vacuity): `[1/2, 1/4, 1/4]` is accepted. -/
example [FP] [FP.Exact] : ∃ v, SimplexVector.new [fin (1/2), fin (1/4), fin (1/4)] = .ok v := by
  refine ⟨⟨_⟩, (C05_simplex_new_iff _ _).2 ⟨rfl, ?_, ?_⟩⟩
  · intro p hp
    simp only [List.mem_cons, List.not_mem_nil, or_false] at hp
    rcases hp with rfl | rfl | rfl
    · exact ⟨_, Is.fin _, by norm_num, by norm_num⟩
    · exact ⟨_, Is.fin _, by norm_num, by norm_num⟩
    · exact ⟨_, Is.fin _, by norm_num, by norm_num⟩
  · have hs : (F64.sum [fin (1/2), fin (1/4), fin (1/4)]).Is ([1/2, 1/4, 1/4] : List ℝ).sum :=
      Is.sum (.cons (Is.fin _) (.cons (Is.fin _) (.cons (Is.fin _) .nil)))
    rw [((hs.sub Is.one).abs).lt_iff (Is.lit _)]
    norm_num

/-! ## C06 -/

/-- C06: an accepted array of at most 2^30 entries has exact sum within 1.1e-5 of one, whatever the rounding. -/
theorem C06_simplex_exact_sum [FP] [FP.Lawful] (ps : List F64) (v : SimplexVector)
    (h : SimplexVector.new ps = .ok v) (hK : ps.length ≤ 2 ^ 30) :
    |(v.ps.map toReal).sum - 1| ≤ 11 / 1000000 := by
  obtain ⟨hv, hu, ht⟩ := (C05_simplex_new_iff ps v).1 h
  rw [hv]
  have hu' : ∀ p ∈ ps, 0 ≤ p ∧ p ≤ 1 := fun p hp => (unit_iff p).2 (hu p hp)
  obtain ⟨y, hy, hyr, hy0, hyn, herr⟩ := foldl_unit ps 0 0 0 hu' Is.zero rnd_zero le_rfl (by simp)
    (by norm_num at hK ⊢; omega)
  obtain ⟨t, htol, _, ht2⟩ := tol_is
  have hyle : y ≤ 2 ^ 30 := by
    refine hyn.trans ?_
    have : (ps.length : ℝ) ≤ 2 ^ 30 := by exact_mod_cast hK
    simpa using this
  have hsub := sub_is (a := F64.sum ps) hy Is.one (not_huge_of_le (2 ^ 31) (by norm_num) (by
    rw [abs_le]; push_cast; constructor <;> linarith))
  have hlt : |FP.rnd (y - 1)| < t := (hsub.abs.lt_iff htol).1 ht
  have hy2 : y ≤ 2 := by
    by_contra hgt
    push Not at hgt
    have := FP.Lawful.rnd_mono (by linarith : (1:ℝ) ≤ y - 1)
    rw [rnd_one] at this
    have := lt_of_abs_lt hlt
    norm_num at ht2; linarith
  have e1 : |FP.rnd (y - 1) - (y - 1)| ≤ 1 / 2 ^ 51 := step_err (by rw [abs_le]; constructor <;> linarith)
  have e2 := herr hy2
  have hK' : (ps.length : ℝ) ≤ 2 ^ 30 := by exact_mod_cast hK
  have e3 : (ps.length : ℝ) * (1 / 2 ^ 51) ≤ 1 / 2 ^ 21 := by
    calc (ps.length : ℝ) * (1 / 2 ^ 51) ≤ 2 ^ 30 * (1 / 2 ^ 51) := by gcongr
      _ = 1 / 2 ^ 21 := by norm_num
  rw [zero_add] at e2
  rw [abs_le] at e1 e2 ⊢
  rw [abs_lt] at hlt
  norm_num at ht2 e1 e3 ⊢
  constructor <;> linarith [e1.1, e1.2, e2.1, e2.2, hlt.1, hlt.2]

/-! ## C07 -/

/-- C07: for K ≥ 1 `sample_index` returns an index below K and consumes exactly one draw (both profiles). -/
theorem C07_sample_index_in_range [FP] {σ : Type} (pr : Profile) (g : Rng σ) (v : SimplexVector) (s : σ)
    (hK : 1 ≤ v.ps.length) :
    (∃ i < v.ps.length, (v.sampleIndex pr g s).1 = .ok i) ∧ (v.sampleIndex pr g s).2 = (g.gen s).2 := by
  refine ⟨?_, rfl⟩
  unfold SimplexVector.sampleIndex SimplexVector.indexOf usub
  dsimp only
  rw [if_pos hK]
  refine ⟨_, ?_, rfl⟩
  cases hp : SimplexVector.position (g.gen s).1 (SimplexVector.prefixes 0 v.ps) with
  | none => simp only [Option.getD_none]; omega
  | some i =>
    have := position_lt _ _ _ hp
    rw [prefixes_length] at this
    simpa using this

/-- C07: for K = 0 the eager `len() - 1` underflows: a debug build panics. -/
theorem C07_sample_index_empty_panics [FP] {σ : Type} (g : Rng σ) (s : σ) :
    ((⟨[]⟩ : SimplexVector).sampleIndex .debug g s).1 = .error .overflow := by
  simp [SimplexVector.sampleIndex, SimplexVector.indexOf, usub]

/-! ## C08 -/

/-- C08: `sample_index` inverts the prefix sums `F64.sum (ps.take (j+1))`: index `i` is returned exactly when the draw
is below prefix sum `i` and below no earlier one, or when `i` is last and the draw is below no prefix sum. -/
theorem C08_sample_index_spec [FP] (pr : Profile) (v : SimplexVector) (u : F64) (i : ℕ) (hi : i < v.ps.length) :
    v.indexOf pr u = .ok i ↔
      (u < F64.sum (v.ps.take (i + 1)) ∧ ∀ j < i, ¬ u < F64.sum (v.ps.take (j + 1))) ∨
      (i + 1 = v.ps.length ∧ ∀ j < v.ps.length, ¬ u < F64.sum (v.ps.take (j + 1))) := by
  have hK : 1 ≤ v.ps.length := by omega
  have hget : ∀ j, j < v.ps.length → (SimplexVector.prefixes 0 v.ps)[j]? = some (F64.sum (v.ps.take (j + 1))) :=
    fun j hj => prefixes_get v.ps 0 j hj
  unfold SimplexVector.indexOf usub
  rw [if_pos hK]
  dsimp only
  cases hp : SimplexVector.position u (SimplexVector.prefixes 0 v.ps) with
  | none =>
    have hn : ∀ j < v.ps.length, ¬ u < F64.sum (v.ps.take (j + 1)) := by
      intro j hj
      exact (position_none _ _).1 hp _ (List.mem_of_getElem? (hget j hj))
    simp only [Option.getD_none, Except.ok.injEq]
    constructor
    · intro h; right; exact ⟨by omega, hn⟩
    · rintro (⟨h, _⟩ | ⟨h, _⟩)
      · exact absurd h (hn i hi)
      · omega
  | some k =>
    have hk : k < v.ps.length := by have := position_lt _ _ _ hp; rwa [prefixes_length] at this
    obtain ⟨⟨p, hp1, hp2⟩, hp3⟩ := (position_some _ _ _).1 hp
    rw [hget k hk] at hp1
    cases hp1
    simp only [Option.getD_some, Except.ok.injEq]
    constructor
    · rintro rfl
      left
      exact ⟨hp2, fun j hj => hp3 j hj _ (hget j (by omega))⟩
    · rintro (⟨h1, h2⟩ | ⟨_, h2⟩)
      · rcases lt_trichotomy k i with h | h | h
        · exact absurd hp2 (h2 k h)
        · exact h
        · exact absurd h1 (hp3 i h _ (hget i hi))
      · exact absurd hp2 (h2 k hk)

/-- C08: in exact arithmetic, for non-negative weights summing to one, the set of draws in [0,1) for which index `i`
is returned has Lebesgue measure exactly the `i`-th weight. -/
theorem C08_sample_index_measure [FP] [FP.Exact] (pr : Profile) (ws : List ℝ) (h0 : ∀ w ∈ ws, 0 ≤ w)
    (h1 : ws.sum = 1) (i : ℕ) (hi : i < ws.length) :
    MeasureTheory.volume {u : ℝ | 0 ≤ u ∧ u < 1 ∧
      (SimplexVector.mk (ws.map F64.fin)).indexOf pr (F64.fin u) = .ok i} = ENNReal.ofReal ws[i] := by
  have hS : ∀ j, (F64.sum ((ws.map F64.fin).take j)).Is (ws.take j).sum := by
    intro j
    rw [← List.map_take]
    have := Is.sum_map (ws.take j) F64.fin id (fun a _ => Is.fin a)
    simpa using this
  have hmono : ∀ a b, a ≤ b → (ws.take a).sum ≤ (ws.take b).sum := by
    intro a b hab
    obtain ⟨c, rfl⟩ := Nat.exists_eq_add_of_le hab
    rw [List.take_add, List.sum_append]
    have : 0 ≤ ((ws.drop a).take c).sum :=
      List.sum_nonneg fun x hx => h0 x (List.mem_of_mem_drop (List.mem_of_mem_take hx))
    linarith
  have hset : {u : ℝ | 0 ≤ u ∧ u < 1 ∧
      (SimplexVector.mk (ws.map F64.fin)).indexOf pr (F64.fin u) = .ok i}
      = Set.Ico (ws.take i).sum (ws.take (i + 1)).sum := by
    ext u
    simp only [Set.mem_ofPred_eq, Set.mem_Ico]
    rw [C08_sample_index_spec pr _ _ i (by simpa using hi)]
    simp only [fun j => (Is.fin u).lt_iff (hS j), List.length_map, not_lt]
    constructor
    · rintro ⟨hu0, hu1, (⟨ha, hb⟩ | ⟨ha, hb⟩)⟩
      · refine ⟨?_, ha⟩
        cases i with
        | zero => simpa using hu0
        | succ i => exact hb i (by omega)
      · have := hb i hi
        rw [ha, List.take_length, h1] at this
        linarith
    · rintro ⟨ha, hb⟩
      have z0 : 0 ≤ (ws.take i).sum := by simpa using hmono 0 i (by omega)
      have z1 : (ws.take (i + 1)).sum ≤ 1 := by
        have := hmono (i + 1) ws.length (by omega); rwa [List.take_length, h1] at this
      refine ⟨by linarith, by linarith, Or.inl ⟨hb, fun j hj => ?_⟩⟩
      exact (hmono (j + 1) i (by omega)).trans ha
  rw [hset, Real.volume_Ico]
  congr 1
  rw [List.take_succ_eq_append_getElem hi, List.sum_append]; simp

/-- C08 (non-vacuity) -/
example : (∀ w ∈ ([1/2, 0, 1/2] : List ℝ), 0 ≤ w) ∧ ([1/2, 0, 1/2] : List ℝ).sum = 1 := by
  constructor
  · intro w hw; simp only [List.mem_cons, List.not_mem_nil, or_false] at hw; rcases hw with rfl | rfl | rfl <;> norm_num
  · norm_num

/-! ## C09 -/

/-- C09 (partial): a returned index with zero weight can only be the last one, and only for a draw not below the total of
the weights. Missing from the full claim: exactly that last case, see `C09_zero_weight_violated`. -/
theorem C09_zero_weight_partial [FP] [FP.Lawful] (pr : Profile) (v : SimplexVector) (u : F64) (i : ℕ)
    (hi : i < v.ps.length) (hrange : ∀ p ∈ v.ps, Spec.InUnit p) (hK : v.ps.length ≤ 2 ^ 53)
    (h : v.indexOf pr u = .ok i) (hw : v.ps[i].Is 0) (hu : ∃ r : ℝ, u.Is r ∧ 0 ≤ r) :
    i + 1 = v.ps.length ∧ ¬ u < F64.sum v.ps := by
  have hu' : ∀ p ∈ v.ps, 0 ≤ p ∧ p ≤ 1 := fun p hp => (unit_iff p).2 (hrange p hp)
  rcases (C08_sample_index_spec pr v u i hi).1 h with ⟨h1, h2⟩ | ⟨h1, h2⟩
  · exfalso
    -- prefix sum i equals prefix sum i-1
    have hlen : (v.ps.take i).length = i := by simp; omega
    obtain ⟨y, hy, hyr, _, _⟩ := foldl_unit (v.ps.take i) 0 0 0
      (fun p hp => hu' p (List.mem_of_mem_take hp)) Is.zero rnd_zero le_rfl (by simp)
      (by rw [hlen]; omega)
    have hle : y ≤ (i : ℕ) := by
      obtain ⟨y', hy', _, _, hb, _⟩ := foldl_unit (v.ps.take i) 0 0 0
        (fun p hp => hu' p (List.mem_of_mem_take hp)) Is.zero rnd_zero le_rfl (by simp)
        (by rw [hlen]; omega)
      rw [hy.eq hy']; rw [hlen] at hb; simpa using hb
    have hstep : (F64.sum (v.ps.take (i + 1))).Is y := by
      have e : F64.sum (v.ps.take (i + 1)) = F64.sum (v.ps.take i) + v.ps[i] := by
        rw [List.take_succ_eq_append_getElem hi]; unfold F64.sum; rw [List.foldl_append]; rfl
      rw [e]
      have hnn : 0 ≤ y := by
        obtain ⟨y', hy', _, hb, _⟩ := foldl_unit (v.ps.take i) 0 0 0
          (fun p hp => hu' p (List.mem_of_mem_take hp)) Is.zero rnd_zero le_rfl (by simp)
          (by rw [hlen]; omega)
        rw [hy.eq hy']; exact hb
      have := add_is (a := F64.sum (v.ps.take i)) hy hw (not_huge_of_le i (by omega) (by
        rw [add_zero, abs_of_nonneg hnn]; exact hle))
      rwa [add_zero, hyr] at this
    obtain ⟨r, hr, hr0⟩ := hu
    have hlt : r < y := (hr.lt_iff hstep).1 h1
    cases i with
    | zero =>
      have : y = 0 := hy.eq Is.zero
      linarith
    | succ k =>
      exact h2 k (by omega) ((hr.lt_iff hy).2 hlt)
  · refine ⟨h1, ?_⟩
    have := h2 i hi
    rwa [h1, List.take_length] at this

/-- C09 (violation): in every lawful arithmetic `[1 - 2^-20, 0]` is accepted by `SimplexVector::new`, yet the draw
`1 - 2^-21` returns index 1, whose weight is 0. -/
theorem C09_zero_weight_violated [FP] [FP.Lawful] (pr : Profile) :
    let ps := [fin (1 - 1 / 2 ^ 20), fin 0]
    (∃ v, SimplexVector.new ps = .ok v ∧ v.indexOf pr (fin (1 - 1 / 2 ^ 21)) = .ok 1 ∧ v.ps[1]? = some (fin 0)) := by
  intro ps
  have hrnd : FP.rnd (1 - 1 / 2 ^ 20 : ℝ) = 1 - 1 / 2 ^ 20 := by
    have := FP.Lawful.rnd_dyadic (2 ^ 20 - 1) 20 (by norm_num) (by norm_num)
    have e : (((2 ^ 20 - 1 : ℤ) : ℝ)) / 2 ^ 20 = 1 - 1 / 2 ^ 20 := by norm_num
    rwa [e] at this
  have hs1 : (F64.sum [fin (1 - 1 / 2 ^ 20)]).Is (1 - 1 / 2 ^ 20 : ℝ) := by
    have := add_is (a := 0) (b := fin (1 - 1 / 2 ^ 20)) Is.zero (Is.fin _)
      (not_huge_of_le 1 (by norm_num) (by rw [zero_add, abs_of_pos] <;> norm_num))
    rwa [zero_add, hrnd] at this
  have hs2 : (F64.sum ps).Is (1 - 1 / 2 ^ 20 : ℝ) := by
    have := add_is (a := F64.sum [fin (1 - 1 / 2 ^ 20)]) (b := fin 0) hs1 (Is.fin _)
      (not_huge_of_le 1 (by norm_num) (by rw [add_zero, abs_of_pos] <;> norm_num))
    rwa [add_zero, hrnd] at this
  have hd : FP.rnd ((1 - 1 / 2 ^ 20 : ℝ) - 1) = - (1 / 2 ^ 20) := by
    have := FP.Lawful.rnd_dyadic (-1) 20 (by norm_num) (by norm_num)
    have e : (((-1 : ℤ) : ℝ)) / 2 ^ 20 = (1 - 1 / 2 ^ 20) - 1 := by norm_num
    rw [e] at this; rw [this]; norm_num
  obtain ⟨t, htol, ht1, _⟩ := tol_is
  refine ⟨⟨ps⟩, (C05_simplex_new_iff ps _).2 ⟨rfl, ?_, ?_⟩, ?_, rfl⟩
  · intro p hp
    simp only [ps, List.mem_cons, List.not_mem_nil, or_false] at hp
    rcases hp with rfl | rfl
    · exact ⟨_, Is.fin _, by norm_num, by norm_num⟩
    · exact ⟨_, Is.fin _, by norm_num, by norm_num⟩
  · have hsub := sub_is hs2 Is.one (not_huge_of_le 1 (by norm_num) (by rw [abs_le]; norm_num))
    rw [hd] at hsub
    refine (hsub.abs.lt_iff htol).2 ?_
    rw [abs_neg, abs_of_pos (by norm_num)]
    refine lt_of_lt_of_le ?_ ht1
    norm_num
  · rw [C08_sample_index_spec pr _ _ 1 (by simp [ps])]
    right
    refine ⟨by simp [ps], ?_⟩
    intro j hj
    have hj' : j = 0 ∨ j = 1 := by simp [ps] at hj; omega
    rcases hj' with rfl | rfl
    · have : ps.take (0 + 1) = [fin (1 - 1 / 2 ^ 20)] := rfl
      rw [this, (Is.fin _).lt_iff hs1]; norm_num
    · have : ps.take (1 + 1) = ps := rfl
      rw [this, (Is.fin _).lt_iff hs2]; norm_num

/-! ## C10 -/

/-- C10 (partial): whatever the uniform draws in (0,1], `SimplexVector::sample` returns K entries that sum to exactly one in
exact arithmetic, and entries 1.. are non-negative. Missing from the full claim: non-negativity of entry 0 (false, see
`C10_simplex_sample_violated`). -/
theorem C10_simplex_sample_partial [FP] [FP.Exact] (ss : List ℝ) (h : ∀ s ∈ ss, 0 < s ∧ s ≤ 1) :
    ∃ rs : List ℝ, List.Forall₂ Is (SimplexVector.fromDraws (ss.map F64.fin)).ps rs ∧
      rs.length = ss.length + 1 ∧ rs.sum = 1 ∧ ∀ r ∈ rs.tail, 0 ≤ r := by
  have hsum : ((ss.map F64.fin).foldl (· + ·) (0 : F64)).Is ss.sum := by
    have := Is.sum_map ss F64.fin id (fun a _ => Is.fin a)
    simpa [F64.sum] using this
  by_cases hne : ss = []
  · subst hne
    refine ⟨[1], ?_, rfl, by simp, by simp⟩
    refine .cons ?_ .nil
    exact ((Is.one.sub Is.zero)).congr (by simp)
  have hpos : 0 < ss.sum := List.sum_pos _ (fun s hs => (h s hs).1) hne
  have hprobs : List.Forall₂ Is ((ss.map F64.fin).map (fun s => (-(s.ln)) / (ss.map F64.fin).foldl (· + ·) 0))
      (ss.map fun s => -Real.log s / ss.sum) := by
    rw [List.map_map]
    refine forall₂_map ss _ _ fun s hs => ?_
    exact ((Is.fin s).ln (h s hs).1).neg.div hsum hpos.ne'
  refine ⟨(1 - (ss.map fun s => -Real.log s / ss.sum).sum) :: (ss.map fun s => -Real.log s / ss.sum), ?_, ?_, ?_, ?_⟩
  · refine .cons ?_ hprobs
    exact Is.one.sub (by simpa [F64.sum] using foldl_add_is _ _ hprobs Is.zero)
  · simp
  · simp
  · intro r hr
    simp only [List.tail_cons, List.mem_map] at hr
    obtain ⟨s, hs, rfl⟩ := hr
    have := Real.log_nonpos (h s hs).1.le (h s hs).2
    apply div_nonneg (by linarith) hpos.le

/-- C10: `sample::<K>` makes exactly K-1 draws, in order, and applies `fromDraws` to them. -/
theorem C10_simplex_sample_draws [FP] {σ : Type} (draw : σ → F64 × σ) (n : ℕ) (s : σ) :
    (SimplexVector.sample draw (n + 1) s) =
      (.ok (SimplexVector.fromDraws (SimplexVector.draws draw n s).1), (SimplexVector.draws draw n s).2) ∧
    (SimplexVector.draws draw n s).1.length = n := by
  refine ⟨rfl, ?_⟩
  induction n generalizing s with
  | zero => rfl
  | succ n ih => simp [SimplexVector.draws, ih]

/-- C10 (violation): for K = 2 the draw 1/2 yields a negative first entry, so the result is not on the simplex. -/
theorem C10_simplex_sample_violated [FP] [FP.Exact] :
    ∃ p rest, (SimplexVector.fromDraws [F64.fin (1 / 2)]).ps = p :: rest ∧ p < 0 := by
  refine ⟨_, _, rfl, ?_⟩
  have hs : (([F64.fin (1/2)]).foldl (· + ·) (0 : F64)).Is (1/2 : ℝ) := (Is.zero.add (Is.fin (1/2))).congr (by ring)
  have hq : (-((F64.fin (1/2)).ln) / ([F64.fin (1/2)]).foldl (· + ·) (0 : F64)).Is (-Real.log (1/2) / (1/2)) :=
    ((Is.fin (1/2)).ln (by norm_num)).neg.div hs (by norm_num)
  have := Is.one.sub (Is.zero.add hq)
  refine (this.lt_iff Is.zero).2 ?_
  have hl := Real.log_two_gt_d9
  rw [one_div, Real.log_inv]
  norm_num; linarith

/-! ## C11 -/

/-- C11: `centre()` has K entries, all equal to the rounded quotient 1/K. -/
theorem C11_centre_entries [FP] [FP.Lawful] (K : ℕ) (hK : 1 ≤ K) (hK2 : K ≤ 2 ^ 53) :
    (SimplexVector.centre K).ps.length = K ∧
    ∀ p ∈ (SimplexVector.centre K).ps, p.Is (FP.rnd (1 / (K : ℝ))) := by
  refine ⟨by simp [SimplexVector.centre, SimplexVector.newUnchecked], ?_⟩
  intro p hp
  have hp' : p = 1 / F64.ofNat K := by
    simpa [SimplexVector.centre, SimplexVector.newUnchecked] using (List.eq_of_mem_replicate hp)
  rw [hp']
  have hKr : (1:ℝ) ≤ K := by exact_mod_cast hK
  have hn : (F64.ofNat K).Is (K : ℝ) := by
    have := round_is_of_le (r := (K : ℝ)) K hK2 (by simp)
    rwa [rnd_natCast K hK2] at this
  refine div_is Is.one hn (by positivity) (not_huge_of_le 1 (by norm_num) ?_)
  rw [abs_of_nonneg (by positivity), div_le_iff₀ (by positivity)]; simpa using hKr

/-- C11: `centre()` passes `SimplexVector::new`, for every K up to 2^30 and every lawful rounding. -/
theorem C11_centre_valid [FP] [FP.Lawful] (K : ℕ) (hK : 1 ≤ K) (hK2 : K ≤ 2 ^ 30) :
    SimplexVector.new (SimplexVector.centre K).ps = .ok (SimplexVector.centre K) := by
  have hK3 : K ≤ 2 ^ 53 := hK2.trans (by norm_num)
  obtain ⟨hlen, hall⟩ := C11_centre_entries K hK hK3
  have hKr : (1:ℝ) ≤ K := by exact_mod_cast hK
  have hKr2 : (K:ℝ) ≤ 2 ^ 30 := by exact_mod_cast hK2
  have hinv0 : (0:ℝ) ≤ 1 / K := by positivity
  have hinv1 : (1:ℝ) / K ≤ 1 := by rw [div_le_iff₀ (by positivity)]; simpa using hKr
  have hunit : ∀ p ∈ (SimplexVector.centre K).ps, Spec.InUnit p := fun p hp =>
    ⟨_, hall p hp, rnd_nonneg hinv0, rnd_le_one hinv1⟩
  refine (C05_simplex_new_iff _ _).2 ⟨rfl, hunit, ?_⟩
  have hsum : ((SimplexVector.centre K).ps.map toReal).sum = K * FP.rnd (1 / (K:ℝ)) := by
    have : (SimplexVector.centre K).ps.map toReal = List.replicate K (FP.rnd (1 / (K:ℝ))) := by
      rw [List.eq_replicate_iff]
      refine ⟨by rw [List.length_map, hlen], ?_⟩
      intro b hb
      obtain ⟨a, ha, rfl⟩ := List.mem_map.1 hb
      exact (hall a ha).toReal_eq
    rw [this, List.sum_replicate]; simp
  have herr1 : |K * FP.rnd (1 / (K:ℝ)) - 1| ≤ 1 / 2 ^ 21 := by
    have h1 := FP.Lawful.rnd_err (1 / (K:ℝ))
    rw [abs_of_nonneg hinv0] at h1
    have e : K * FP.rnd (1 / (K:ℝ)) - 1 = K * (FP.rnd (1 / (K:ℝ)) - 1 / K) := by
      have : (K:ℝ) ≠ 0 := by positivity
      field_simp
    rw [e, abs_mul, abs_of_nonneg (by positivity : (0:ℝ) ≤ K)]
    have h2 : (1:ℝ) / 2 ^ 1075 ≤ 1 / 2 ^ 53 := by
      apply one_div_le_one_div_of_le (by positivity)
      exact pow_le_pow_right₀ (by norm_num) (by norm_num)
    have h3 : 1 / (K:ℝ) / 2 ^ 53 ≤ 1 / 2 ^ 53 := by gcongr
    have h4 : |FP.rnd (1 / (K:ℝ)) - 1 / K| ≤ 1 / 2 ^ 52 := by
      refine h1.trans ((add_le_add h3 h2).trans ?_); norm_num
    calc (K:ℝ) * |FP.rnd (1 / (K:ℝ)) - 1 / K| ≤ 2 ^ 30 * (1 / 2 ^ 52) := by gcongr
      _ ≤ 1 / 2 ^ 21 := by norm_num
  have hLen : ((SimplexVector.centre K).ps.length : ℝ) * (1 / 2 ^ 51) ≤ 1 / 2 ^ 21 := by
    rw [hlen]
    calc (K : ℝ) * (1 / 2 ^ 51) ≤ 2 ^ 30 * (1 / 2 ^ 51) := by gcongr
      _ = 1 / 2 ^ 21 := by norm_num
  rw [abs_le] at herr1
  obtain ⟨y, hy, hye⟩ := foldl_unit' (SimplexVector.centre K).ps 0 0
    (fun p hp => (unit_iff p).2 (hunit p hp)) Is.zero le_rfl (by
      rw [hsum]; norm_num at herr1 hLen ⊢; linarith [herr1.2])
  rw [hsum, zero_add, abs_le] at hye
  obtain ⟨t, htol, ht1, _⟩ := tol_is
  have hy1 : |y - 1| ≤ 1 / 2 ^ 20 := by
    rw [abs_le]; norm_num at herr1 hLen hye ⊢
    constructor <;> linarith [herr1.1, herr1.2, hye.1, hye.2]
  have hsub := sub_is (a := F64.sum (SimplexVector.centre K).ps) hy Is.one
    (not_huge_of_le 1 (by norm_num) (hy1.trans (by norm_num)))
  refine (hsub.abs.lt_iff htol).2 ?_
  have hst : |FP.rnd (y - 1) - (y - 1)| ≤ 1 / 2 ^ 51 := step_err (hy1.trans (by norm_num))
  refine lt_of_lt_of_le ?_ ht1
  rw [abs_lt]; rw [abs_le] at hy1 hst
  norm_num at hy1 hst ⊢
  constructor <;> linarith [hy1.1, hy1.2, hst.1, hst.2]

/-- C11: in exact arithmetic the entries are 1/K and sum to 1. -/
theorem C11_centre_exact [FP] [FP.Exact] (K : ℕ) (hK : 1 ≤ K) (hK2 : K ≤ 2 ^ 53) :
    ((SimplexVector.centre K).ps.map toReal).sum = 1 ∧ ∀ p ∈ (SimplexVector.centre K).ps, p.Is (1 / (K:ℝ)) := by
  obtain ⟨hlen, hall⟩ := C11_centre_entries K hK hK2
  simp only [FP.Exact.rnd_id] at hall
  refine ⟨?_, hall⟩
  have : (SimplexVector.centre K).ps.map toReal = List.replicate K (1 / (K:ℝ)) := by
    rw [List.eq_replicate_iff]
    refine ⟨by rw [List.length_map, hlen], ?_⟩
    intro b hb
    obtain ⟨a, ha, rfl⟩ := List.mem_map.1 hb
    exact (hall a ha).toReal_eq
  have hne : (K:ℝ) ≠ 0 := by positivity
  rw [this, List.sum_replicate]; simp [hne]

end Rstat
