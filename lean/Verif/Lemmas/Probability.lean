import Verif.Model.Probability
import Verif.Float.Binary64
import Mathlib.MeasureTheory.Measure.Lebesgue.Basic

/-! Helper lemmas for the probability/simplex properties. -/
namespace Rstat
open F64

/-- being a valid probability value -/
theorem unit_iff (p : F64) : (0 ≤ p ∧ p ≤ 1) ↔ ∃ r : ℝ, p.Is r ∧ 0 ≤ r ∧ r ≤ 1 := by
  constructor
  · rintro ⟨h0, h1⟩
    obtain ⟨h, a, b⟩ := is_of_le_le Is.zero Is.one h0 h1
    exact ⟨_, h, a, b⟩
  · rintro ⟨r, h, a, b⟩
    exact ⟨(Is.zero.le_iff h).2 a, (h.le_iff Is.one).2 b⟩

theorem lit_lower [FP] [FP.Lawful] {c : ℝ} (hc : 0 < c) (hc1 : c ≤ 1) (e : ℕ) (he : e ≤ 1000)
    (h : 1 / 2 ^ e ≤ c) : ∃ t, (F64.lit c).Is t ∧ 1 / 2 ^ e ≤ t := by
  refine ⟨FP.rnd c, round_is_of_le 1 (by norm_num) ?_, ?_⟩
  · rw [abs_of_pos hc]; simpa using hc1
  · have := FP.Lawful.rnd_mono h
    have e1 := FP.Lawful.rnd_dyadic 1 e (by norm_num) he
    push_cast at e1
    rwa [e1] at this

theorem tol_is [FP] [FP.Lawful] :
    ∃ t, SimplexVector.tol.Is t ∧ 1 / 2 ^ 17 ≤ t ∧ t ≤ 10001 / 10 ^ 9 := by
  obtain ⟨t, h, h'⟩ := lit_lower (c := 1 / 100000) (by norm_num) (by norm_num) 17 (by norm_num) (by norm_num)
  refine ⟨t, h, h', ?_⟩
  have ht : t = FP.rnd (1 / 100000) := h.eq (round_is_of_le 1 (by norm_num) (by norm_num [abs_of_pos]))
  have herr := FP.Lawful.rnd_err (1 / 100000 : ℝ)
  rw [← ht, abs_le] at herr
  have h2 : (1:ℝ) / 2 ^ 1075 ≤ 1 / 2 ^ 100 := by
    apply one_div_le_one_div_of_le (by positivity)
    exact pow_le_pow_right₀ (by norm_num) (by norm_num)
  have h3 : |(1:ℝ) / 100000| = 1 / 100000 := abs_of_pos (by norm_num)
  rw [h3] at herr
  have := herr.2
  norm_num at h2 this ⊢
  linarith

theorem sumLoop_ok [FP] (ps : List F64) (z : F64) (h : ∀ p ∈ ps, 0 ≤ p ∧ p ≤ 1) :
    SimplexVector.sumLoop z ps = .ok (ps.foldl (· + ·) z) := by
  induction ps generalizing z with
  | nil => rfl
  | cons p ps ih =>
    unfold SimplexVector.sumLoop Probability.new
    rw [if_pos (h p (by simp))]
    exact ih _ (fun q hq => h q (by simp [hq]))

theorem sumLoop_error [FP] (ps qs : List F64) (p z : F64) (h : ∀ p ∈ ps, 0 ≤ p ∧ p ≤ 1)
    (hp : ¬ (0 ≤ p ∧ p ≤ 1)) : SimplexVector.sumLoop z (ps ++ p :: qs) = .error ⟨p⟩ := by
  induction ps generalizing z with
  | nil => unfold SimplexVector.sumLoop Probability.new; simp only [List.nil_append]; rw [if_neg hp]
  | cons q ps ih =>
    rw [List.cons_append]
    unfold SimplexVector.sumLoop Probability.new
    rw [if_pos (h q (by simp))]
    exact ih _ (fun q hq => h q (by simp [hq]))

theorem sumLoop_dichotomy [FP] (ps : List F64) :
    (∀ p ∈ ps, 0 ≤ p ∧ p ≤ 1) ∨
    ∃ as p bs, ps = as ++ p :: bs ∧ (∀ q ∈ as, 0 ≤ q ∧ q ≤ 1) ∧ ¬ (0 ≤ p ∧ p ≤ 1) := by
  induction ps with
  | nil => left; simp
  | cons p ps ih =>
    by_cases hp : 0 ≤ p ∧ p ≤ 1
    · rcases ih with h | ⟨as, q, bs, h1, h2, h3⟩
      · left; intro q hq; rcases List.mem_cons.1 hq with rfl | hq
        · exact hp
        · exact h q hq
      · right; refine ⟨p :: as, q, bs, by rw [h1]; rfl, ?_, h3⟩
        intro r hr; rcases List.mem_cons.1 hr with rfl | hr
        · exact hp
        · exact h2 r hr
    · right; exact ⟨[], p, ps, rfl, by simp, hp⟩

/-- rounding error of one addition of magnitude at most 3 -/
theorem step_err [FP] [FP.Lawful] {x : ℝ} (h : |x| ≤ 3) : |FP.rnd x - x| ≤ 1 / 2 ^ 51 := by
  have h1 := FP.Lawful.rnd_err x
  have h2 : (1:ℝ) / 2 ^ 1075 ≤ 1 / 2 ^ 53 := by
    apply one_div_le_one_div_of_le (by positivity)
    exact pow_le_pow_right₀ (by norm_num) (by norm_num)
  have h3 : |x| / 2 ^ 53 ≤ 3 / 2 ^ 53 := by gcongr
  refine (h1.trans (add_le_add h3 h2)).trans ?_
  norm_num

/-- summation of unit entries: never overflows, never decreases, and stays close to the exact sum as long as the
running value stays below 2 -/
theorem foldl_unit [FP] [FP.Lawful] (ps : List F64) :
    ∀ (n : ℕ) (z : F64) (r : ℝ), (∀ p ∈ ps, 0 ≤ p ∧ p ≤ 1) → z.Is r → FP.rnd r = r → 0 ≤ r → r ≤ n →
      n + ps.length ≤ 2 ^ 53 →
      ∃ y, (ps.foldl (· + ·) z).Is y ∧ FP.rnd y = y ∧ r ≤ y ∧ y ≤ n + ps.length ∧
        (y ≤ 2 → |y - (r + (ps.map toReal).sum)| ≤ ps.length * (1 / 2 ^ 51)) := by
  induction ps with
  | nil =>
    intro n z r _ hz hr h0 hn hlen
    exact ⟨r, hz, hr, le_rfl, by simpa using hn, by simp⟩
  | cons p ps ih =>
    intro n z r hps hz hr h0 hn hlen
    obtain ⟨q, hq, q0, q1⟩ := (unit_iff p).1 (hps p (by simp))
    have hlen' : (n + 1) + ps.length ≤ 2 ^ 53 := by simp only [List.length_cons] at hlen; omega
    have hle : r + q ≤ ((n + 1 : ℕ) : ℝ) := by push_cast; linarith
    have habs : |r + q| ≤ ((n + 1 : ℕ) : ℝ) := by rw [abs_of_nonneg (by linarith)]; exact hle
    have hstep := add_is hz hq (not_huge_of_le (n + 1) (by omega) habs)
    have hmono : r ≤ FP.rnd (r + q) := by
      have := FP.Lawful.rnd_mono (by linarith : r ≤ r + q); rwa [hr] at this
    have hup : FP.rnd (r + q) ≤ ((n + 1 : ℕ) : ℝ) := by
      have := FP.Lawful.rnd_mono hle; rwa [rnd_natCast (n + 1) (by omega)] at this
    obtain ⟨y, h1, h2, h3, h4, h5⟩ := ih (n + 1) (z + p) (FP.rnd (r + q))
      (fun a ha => hps a (by simp [ha])) hstep (FP.Lawful.rnd_idem _) (h0.trans hmono) hup hlen'
    refine ⟨y, h1, h2, hmono.trans h3, ?_, ?_⟩
    · push_cast [List.length_cons] at h4 ⊢; linarith
    · intro hy
      have hy' := h5 hy
      have hr2 : r ≤ 2 := hmono.trans (h3.trans hy)
      have herr : |FP.rnd (r + q) - (r + q)| ≤ 1 / 2 ^ 51 :=
        step_err (by rw [abs_of_nonneg (by linarith)]; linarith)
      have hqv : p.toReal = q := hq.toReal_eq
      simp only [List.map_cons, List.sum_cons, List.length_cons, hqv]
      push_cast
      rw [abs_le] at hy' herr ⊢
      constructor <;> linarith [hy'.1, hy'.2, herr.1, herr.2]

/-- same, from an a-priori bound on the exact sum -/
theorem foldl_unit' [FP] [FP.Lawful] (ps : List F64) :
    ∀ (z : F64) (r : ℝ), (∀ p ∈ ps, 0 ≤ p ∧ p ≤ 1) → z.Is r → 0 ≤ r →
      r + (ps.map toReal).sum + ps.length * (1 / 2 ^ 51) ≤ 2 →
      ∃ y, (ps.foldl (· + ·) z).Is y ∧
        |y - (r + (ps.map toReal).sum)| ≤ ps.length * (1 / 2 ^ 51) := by
  induction ps with
  | nil => intro z r _ hz h0 _; exact ⟨r, hz, by simp⟩
  | cons p ps ih =>
    intro z r hps hz h0 hb
    obtain ⟨q, hq, q0, q1⟩ := (unit_iff p).1 (hps p (by simp))
    have hqv : p.toReal = q := hq.toReal_eq
    simp only [List.map_cons, List.sum_cons, List.length_cons, hqv] at hb ⊢
    push_cast at hb ⊢
    have hsum : 0 ≤ (ps.map toReal).sum := by
      apply List.sum_nonneg
      intro x hx
      obtain ⟨a, ha, rfl⟩ := List.mem_map.1 hx
      obtain ⟨t, ht, t0, _⟩ := (unit_iff a).1 (hps a (by simp [ha]))
      rw [ht.toReal_eq]; exact t0
    have hL : (0:ℝ) ≤ ps.length * (1 / 2 ^ 51) := by positivity
    have hrq : |r + q| ≤ 2 := by
      rw [abs_of_nonneg (by linarith)]
      have : (0:ℝ) < 1 / 2 ^ 51 := by positivity
      nlinarith
    have hstep := add_is hz hq (not_huge_of_le 2 (by norm_num) (by simpa using hrq))
    have herr : |FP.rnd (r + q) - (r + q)| ≤ 1 / 2 ^ 51 := step_err (hrq.trans (by norm_num))
    have hnn : 0 ≤ FP.rnd (r + q) := rnd_nonneg (by linarith)
    rw [abs_le] at herr
    obtain ⟨y, h1, h2⟩ := ih (z + p) (FP.rnd (r + q)) (fun a ha => hps a (by simp [ha])) hstep hnn
      (by linarith [herr.1, herr.2])
    refine ⟨y, h1, ?_⟩
    rw [abs_le] at h2 ⊢
    constructor <;> linarith [h2.1, h2.2, herr.1, herr.2]

/-! ### sample_index -/

theorem prefixes_length [FP] (ps : List F64) (z : F64) : (SimplexVector.prefixes z ps).length = ps.length := by
  induction ps generalizing z with
  | nil => rfl
  | cons p ps ih => simp [SimplexVector.prefixes, ih]

theorem prefixes_get [FP] (ps : List F64) (z : F64) (i : ℕ) (hi : i < ps.length) :
    (SimplexVector.prefixes z ps)[i]? = some ((ps.take (i + 1)).foldl (· + ·) z) := by
  induction ps generalizing z i with
  | nil => simp at hi
  | cons p ps ih =>
    cases i with
    | zero => simp [SimplexVector.prefixes]
    | succ i =>
      simp only [SimplexVector.prefixes, List.getElem?_cons_succ, List.take_succ_cons, List.foldl_cons]
      exact ih (z + p) i (by simpa using hi)

theorem position_some [FP] (u : F64) (l : List F64) (i : ℕ) :
    SimplexVector.position u l = some i ↔
      (∃ p, l[i]? = some p ∧ u < p) ∧ ∀ j < i, ∀ p, l[j]? = some p → ¬ u < p := by
  induction l generalizing i with
  | nil => simp [SimplexVector.position]
  | cons q l ih =>
    unfold SimplexVector.position
    split_ifs with h
    · constructor
      · intro h'
        have : i = 0 := by simpa using h'.symm
        subst this
        exact ⟨⟨q, by simp, h⟩, by simp⟩
      · rintro ⟨_, h2⟩
        cases i with
        | zero => rfl
        | succ i => exact absurd h (h2 0 (by omega) q (by simp))
    · cases i with
      | zero =>
        constructor
        · intro h'
          obtain ⟨a, _, ha⟩ := Option.map_eq_some_iff.1 h'
          omega
        · rintro ⟨⟨p, hp, hlt⟩, _⟩
          simp at hp; subst hp; exact absurd hlt h
      | succ i =>
        rw [Option.map_eq_some_iff]
        constructor
        · rintro ⟨a, ha, hai⟩
          have : a = i := by omega
          subst this
          obtain ⟨⟨p, hp, hlt⟩, h2⟩ := (ih a).1 ha
          refine ⟨⟨p, by simpa using hp, hlt⟩, ?_⟩
          intro j hj p' hp'
          cases j with
          | zero => simp at hp'; subst hp'; exact h
          | succ j => exact h2 j (by omega) p' (by simpa using hp')
        · rintro ⟨⟨p, hp, hlt⟩, h2⟩
          refine ⟨i, (ih i).2 ⟨⟨p, by simpa using hp, hlt⟩, ?_⟩, rfl⟩
          intro j hj p' hp'
          exact h2 (j + 1) (by omega) p' (by simpa using hp')

theorem position_none [FP] (u : F64) (l : List F64) :
    SimplexVector.position u l = none ↔ ∀ p ∈ l, ¬ u < p := by
  induction l with
  | nil => simp [SimplexVector.position]
  | cons q l ih =>
    unfold SimplexVector.position
    split_ifs with h
    · simp [h]
    · simp [h, ih]

theorem position_lt [FP] (u : F64) (l : List F64) (i : ℕ) (h : SimplexVector.position u l = some i) :
    i < l.length := by
  obtain ⟨⟨p, hp, _⟩, _⟩ := (position_some u l i).1 h
  by_contra hge
  rw [List.getElem?_eq_none (by omega)] at hp
  simp at hp

end Rstat
