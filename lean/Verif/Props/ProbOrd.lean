import Verif.Model.ProbOrd
import Verif.Props.Probability
import Verif.Lemmas.Traits
import Verif.Float.ExactInst
import Verif.Float.Binary64

/-! Property C247: comparing probabilities. -/
namespace Rstat
open F64 Classical

/-- C247: `partial_cmp` on two valid probabilities always answers, and answers the order of the real numbers they hold; `==` is equality of those
numbers, both between probabilities and with an f64; `zero()` and `one()` are the least and the greatest valid probability and `default()` is `zero()`.
In every arithmetic. -/
theorem C247_order [FP] (p q : Probability) (hp : p.isValid) (hq : q.isValid) :
    ∃ r s : ℝ, p.unwrap.Is r ∧ q.unwrap.Is s ∧ p.partialCmp q = some (cmp r s) ∧ (p.eq q ↔ r = s) ∧
      (∀ x : F64, p.eqF x ↔ x.Is r) ∧ p.partialCmp Probability.zero ≠ some .lt ∧ p.partialCmp Probability.one ≠ some .gt ∧
      Probability.default = Probability.zero ∧ Probability.zero.isValid ∧ Probability.one.isValid := by
  obtain ⟨r, hr, r0, r1⟩ := (C01_is_valid_iff p).1 hp
  obtain ⟨s, hs, s0, s1⟩ := (C01_is_valid_iff q).1 hq
  have feq_iff : ∀ {a b : F64} {u v : ℝ}, a.Is u → b.Is v → (a.feq b ↔ u = v) := fun {a b u v} ha hb => by
    unfold F64.feq
    rw [ha.ext_eq, hb.ext_eq]
    constructor
    · rintro ⟨x, h1, h2⟩
      have := (Option.some.inj h1).trans (Option.some.inj h2).symm
      exact_mod_cast this
    · rintro rfl; exact ⟨_, rfl, rfl⟩
  have cmp_eq : ∀ {a b : F64} {u v : ℝ}, a.Is u → b.Is v → a.partialCmp b = some (cmp u v) := fun {a b u v} ha hb => by
    unfold F64.partialCmp
    rcases lt_trichotomy u v with h | h | h
    · rw [if_pos ((ha.lt_iff hb).2 h), (cmp_eq_lt_iff _ _).2 h]
    · rw [if_neg (fun h' => absurd ((ha.lt_iff hb).1 h') (by rw [h]; exact lt_irrefl _)), if_pos ((feq_iff ha hb).2 h), (cmp_eq_eq_iff _ _).2 h]
    · rw [if_neg (fun h' => absurd ((ha.lt_iff hb).1 h') h.not_gt), if_neg (fun h' => h.ne' ((feq_iff ha hb).1 h')), if_pos ((hb.lt_iff ha).2 h),
        (cmp_eq_gt_iff _ _).2 h]
  refine ⟨r, s, hr, hs, cmp_eq hr hs, feq_iff hr hs, fun x => ⟨?_, fun hx => (feq_iff hr hx).2 rfl⟩, ?_, ?_, rfl, ?_, ?_⟩
  · rintro ⟨y, h1, h2⟩
    have hy : y = (r : EReal) := by
      have h3 : p.val.ext = some (r : EReal) := hr.ext_eq
      rw [h3] at h1; exact (Option.some.inj h1).symm
    subst hy
    cases x with
    | nan => cases h2
    | pinf => exact absurd (Option.some.inj h2) (by simp)
    | ninf => exact absurd (Option.some.inj h2) (by simp)
    | negZero =>
      have : (0 : EReal) = (r : EReal) := Option.some.inj h2
      have : (0 : ℝ) = r := by exact_mod_cast this
      rw [← this]; exact Is.negZero
    | fin u =>
      have : (u : EReal) = (r : EReal) := Option.some.inj h2
      have : u = r := by exact_mod_cast this
      rw [this]; exact Is.fin _
  · have : p.partialCmp Probability.zero = some (cmp r 0) := cmp_eq hr Is.zero
    rw [this]
    intro h
    exact absurd ((cmp_eq_lt_iff _ _).1 (Option.some.inj h)) r0.not_gt
  · have : p.partialCmp Probability.one = some (cmp r 1) := cmp_eq hr Is.one
    rw [this]
    intro h
    exact absurd ((cmp_eq_gt_iff _ _).1 (Option.some.inj h)) r1.not_gt
  · exact (C01_is_valid_iff _).2 ⟨0, Is.zero, le_rfl, zero_le_one⟩
  · exact (C01_is_valid_iff _).2 ⟨1, Is.one, zero_le_one, le_rfl⟩

/-- C247: a probability built unchecked from NaN is comparable with nothing and equal to nothing, not even itself. -/
theorem C247_nan [FP] (q : Probability) :
    (Probability.newUnchecked nan).partialCmp q = none ∧ q.partialCmp (Probability.newUnchecked nan) = none ∧
    ¬ (Probability.newUnchecked nan).eq q ∧ ¬ q.eq (Probability.newUnchecked nan) ∧ ∀ x, ¬ (Probability.newUnchecked nan).eqF x := by
  have h1 : ∀ x : F64, ¬ (nan < x) := fun x ⟨a, b, h, _⟩ => by cases h
  have h2 : ∀ x : F64, ¬ (x < nan) := fun x ⟨a, b, _, h, _⟩ => by cases h
  have h3 : ∀ x : F64, ¬ (F64.feq nan x) := fun x ⟨a, h, _⟩ => by cases h
  have h4 : ∀ x : F64, ¬ (F64.feq x nan) := fun x ⟨a, _, h⟩ => by cases h
  refine ⟨?_, ?_, h3 _, h4 _, fun x => h3 x⟩
  · show F64.partialCmp nan q.val = none
    rw [F64.partialCmp, if_neg (h1 _), if_neg (h3 _), if_neg (h2 _)]
  · show F64.partialCmp q.val nan = none
    rw [F64.partialCmp, if_neg (h2 _), if_neg (h4 _), if_neg (h1 _)]

/-- C247: arithmetic respects the order, rounding included: a checked sum is at least both terms, a checked difference is at most the first, a product
is at most both factors, a checked quotient is at least the first. For values `p`, `q` representable in the arithmetic. -/
theorem C247_ops_order [FP] [FP.Lawful] (p q : Probability) (hp : p.isValid) (hq : q.isValid) (rp : ∃ r, p.val.Rep r) (rq : ∃ s, q.val.Rep s) :
    (∀ t, p.add q = .ok t → p.val ≤ t.val ∧ q.val ≤ t.val) ∧ (∀ t, p.sub q = .ok t → t.val ≤ p.val) ∧
    ((p.mul q).val ≤ p.val ∧ (p.mul q).val ≤ q.val) ∧ ∀ t, p.div q = .ok t → p.val ≤ t.val := by
  obtain ⟨r, hr⟩ := rp
  obtain ⟨s, hs⟩ := rq
  obtain ⟨r', hr', r0, r1⟩ := (C01_is_valid_iff p).1 hp
  obtain ⟨s', hs', s0, s1⟩ := (C01_is_valid_iff q).1 hq
  have er : r' = r := hr'.toReal_eq.symm.trans hr.1.toReal_eq
  have es : s' = s := hs'.toReal_eq.symm.trans hs.1.toReal_eq
  subst er es
  have pn : (0 : F64) ≤ p.val := (Is.zero.le_iff hr.1).2 r0
  have qn : (0 : F64) ≤ q.val := (Is.zero.le_iff hs.1).2 s0
  have le_of : ∀ {a : F64} {u : ℝ} {b : F64}, a.Is u → b ≤ fin u → b ≤ a := by
    rintro a u b ha ⟨x, y, h1, h2, h3⟩
    exact ⟨x, y, h1, by rw [ha.ext_eq]; exact h2, h3⟩
  have ge_of : ∀ {a : F64} {u : ℝ} {b : F64}, a.Is u → fin u ≤ b → a ≤ b := by
    rintro a u b ha ⟨x, y, h1, h2, h3⟩
    exact ⟨x, y, by rw [ha.ext_eq]; exact h1, h2, h3⟩
  refine ⟨fun t ht => ?_, fun t ht => ?_, ⟨?_, ?_⟩, fun t ht => ?_⟩
  · have e : t.val = p.val + q.val := C01_new_value _ _ ht
    rw [e]
    refine ⟨le_add_self_of hr qn, ?_⟩
    rcases add_eq_round hr.1 hs.1 with he | ⟨_, h1, he⟩
    · rw [he]; exact ge_of hs.1 (le_round_of_le (by linarith) hs.2.1 hs.2.2)
    · rw [he, ← h1]; exact (hs.1.le_iff hs.1).2 le_rfl
  · have e : t.val = p.val - q.val := C01_new_value _ _ ht
    rw [e]
    exact sub_le_self_of hr qn
  · show p.val * q.val ≤ p.val
    rw [mul_finite hr.1 hs.1]
    split_ifs with h
    · exact ((szero_is _).le_iff hr.1).2 r0
    · exact le_of hr.1 (round_le_of_le (mul_le_of_le_one_right r0 s1) hr.2.1 hr.2.2)
  · show p.val * q.val ≤ q.val
    rw [mul_finite hr.1 hs.1]
    split_ifs with h
    · exact ((szero_is _).le_iff hs.1).2 s0
    · exact le_of hs.1 (round_le_of_le (mul_le_of_le_one_left s0 r1) hs.2.1 hs.2.2)
  · have e : t.val = p.val / q.val := C01_new_value _ _ ht
    have tv : t.isValid := (C01_is_valid_iff t).2 (by
      have := (C01_new_accepts_iff (p.val / q.val)).1 ⟨t, ht⟩
      rw [show t.unwrap = p.val / q.val from e]; exact this)
    obtain ⟨v, hv, -, -⟩ := (C01_is_valid_iff t).1 tv
    have hs0 : s' ≠ 0 := by
      rintro rfl
      have hv' : (p.val / q.val).Is v := by rw [← e]; exact hv
      have := Is.isFinite hv'
      have hd : ¬ (p.val / q.val).isFinite := by
        have hP := hr.1
        have hQ := hs.1
        show ¬ (F64.div p.val q.val).isFinite
        rcases hP with h1 | ⟨h1, h1'⟩ <;> rcases hQ with h2 | ⟨h2, _⟩ <;> rw [h1, h2] <;> simp [F64.div] <;>
          (try split_ifs) <;> simp [F64.isFinite, F64.sinf] <;> (try split_ifs) <;> simp
      exact hd this
    rw [e, div_finite hr.1 hs.1 hs0]
    split_ifs with h
    · exact (hr.1.le_iff (szero_is _)).2 (by rw [h])
    · refine ge_of hr.1 (le_round_of_le ?_ hr.2.1 hr.2.2)
      rw [le_div_iff₀ (lt_of_le_of_ne s0 (Ne.symm hs0))]
      exact mul_le_of_le_one_right r0 s1

section
attribute [local instance] binary64 binary64_lawful
/-- C247 (non-vacuity): in binary64, 1/4 and 1/2 meet the hypotheses; their sum and quotient are accepted -/
example : (Probability.mk (fin (1/4))).isValid ∧ (Probability.mk (fin (1/2))).isValid ∧ (∃ r, (fin (1/4)).Rep r) ∧ (∃ r, (fin (1/2)).Rep r) := by
  refine ⟨(C01_is_valid_iff _).2 ⟨1/4, Is.fin _, by norm_num, by norm_num⟩, (C01_is_valid_iff _).2 ⟨1/2, Is.fin _, by norm_num, by norm_num⟩,
    ⟨1/4, Is.fin _, ?_, ?_⟩, ⟨1/2, Is.fin _, ?_, ?_⟩⟩
  · have := FP.Lawful.rnd_dyadic 1 2 (by norm_num) (by norm_num)
    norm_num at this ⊢; exact this
  · exact FP.Lawful.not_huge _ (le_trans (by rw [abs_of_pos] <;> norm_num) (one_le_pow₀ (by norm_num : (1:ℝ) ≤ 2)))
  · have := FP.Lawful.rnd_dyadic 1 1 (by norm_num) (by norm_num)
    norm_num at this ⊢; exact this
  · exact FP.Lawful.not_huge _ (le_trans (by rw [abs_of_pos] <;> norm_num) (one_le_pow₀ (by norm_num : (1:ℝ) ≤ 2)))
end
end Rstat
