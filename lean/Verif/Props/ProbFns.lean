import Verif.Props.FloatDiscrete
import Verif.Props.FloatSample
import Verif.Props.FloatFit
import Verif.Props.Probability
import Verif.Props.MixtureFloat

/-! Property C264: the functions of a probability (`ln`, `log2`, `powf`, `powi`, `Sum`), and what is left of C10. -/
set_option linter.unusedSectionVars false
namespace Rstat
open F64 Spec

/-! ### exact arithmetic -/
section
variable [FP] [FP.Exact]

/-- C264: the logarithms and powers of a probability are those of its value: for a positive one, natural and binary logarithm,
any real power and any integer power; a zero one has logarithm minus infinity, positive powers 0. -/
theorem C264_values {p : Probability} {r : ℝ} (hp : p.isValid) (hr : p.unwrap.Is r) :
    (0 < r → p.ln.Is (Real.log r) ∧ p.log2.Is (Real.logb 2 r) ∧ (∀ (e : F64) (s : ℝ), e.Is s → (p.powf e).Is (r ^ s)) ∧
      ∀ n : ℤ, (p.powi n).Is (r ^ n)) ∧
    (r = 0 → p.ln = ninf ∧ p.log2 = ninf ∧ (∀ (e : F64) (s : ℝ), e.Is s → 0 < s → (p.powf e).Is 0) ∧
      ∀ n : ℕ, 0 < n → (p.powi n).Is 0) := by
  have hr' : p.val.Is r := hr
  refine ⟨fun h0 => ⟨hr'.ln h0, hr'.log2 h0, fun e s he => hr'.powf he h0, fun n => ?_⟩, ?_⟩
  · rcases lt_trichotomy n 0 with h | h | h
    · obtain ⟨m, rfl⟩ : ∃ m : ℕ, n = -(m : ℤ) := ⟨n.natAbs, by omega⟩
      have := hr'.powi_neg h0.ne' m (by omega)
      rw [zpow_neg, zpow_natCast]; exact this
    · subst h; rw [zpow_zero]; exact (hr'.powi 0).congr (pow_zero r)
    · obtain ⟨m, rfl⟩ : ∃ m : ℕ, n = (m : ℤ) := ⟨n.natAbs, by omega⟩
      rw [zpow_natCast]; exact hr'.powi m
  · rintro rfl
    refine ⟨?_, ?_, fun e s he hs => hr'.powf_zero he hs, fun n hn => (hr'.powi n).congr (zero_pow hn.ne')⟩
    · unfold Probability.ln F64.ln F64.logWith
      rcases hr' with h | ⟨h, _⟩ <;> rw [h] <;> simp
    · unfold Probability.log2 F64.log2 F64.logWith
      rcases hr' with h | ⟨h, _⟩ <;> rw [h] <;> simp

/-- C264: the sum of a list of probabilities, as a number, is the sum of their values. -/
theorem C264_sum {ps : List Probability} {rs : List ℝ} (h : List.Forall₂ (fun p r => p.unwrap.Is r) ps rs) :
    (Probability.sum ps).Is rs.sum := by
  refine Is.sum ?_
  induction h with
  | nil => exact .nil
  | cons h1 _ ih => exact .cons h1 ih

/-- C10 (how often it fails): a sampled vector lies on the simplex exactly when the product of the draws is at least
exp(-(their sum)); otherwise its first entry is negative. -/
theorem C10_simplex_sample_iff (ss : List ℝ) (h : ∀ s ∈ ss, 0 < s ∧ s ≤ 1) (hne : ss ≠ []) :
    ∃ p rest, (SimplexVector.fromDraws (ss.map F64.fin)).ps = p :: rest ∧ (0 ≤ p ↔ Real.exp (-ss.sum) ≤ ss.prod) := by
  have hsum : ((ss.map F64.fin).foldl (· + ·) (0 : F64)).Is ss.sum := by
    have := Is.sum_map ss F64.fin id (fun a _ => Is.fin a)
    simpa [F64.sum] using this
  have hpos : 0 < ss.sum := List.sum_pos _ (fun s hs => (h s hs).1) hne
  have hprobs : List.Forall₂ Is ((ss.map F64.fin).map (fun s => (-(s.ln)) / (ss.map F64.fin).foldl (· + ·) 0))
      (ss.map fun s => -Real.log s / ss.sum) := by
    rw [List.map_map]
    refine forall₂_map ss _ _ fun s hs => ?_
    exact ((Is.fin s).ln (h s hs).1).neg.div hsum hpos.ne'
  refine ⟨_, _, rfl, ?_⟩
  have h0 := Is.one.sub (show ((_ : F64)).Is (0 + (ss.map fun s => -Real.log s / ss.sum).sum) from foldl_add_is _ _ hprobs Is.zero)
  rw [Is.zero.le_iff h0, zero_add]
  have hl : ∀ (l : List ℝ) (c : ℝ), (∀ s ∈ l, 0 < s) → (l.map fun s => -Real.log s / c).sum = -Real.log l.prod / c ∧ 0 < l.prod := by
    intro l c hl
    induction l with
    | nil => simp
    | cons x l ih =>
      obtain ⟨i1, i2⟩ := ih fun s hs => hl s (by simp [hs])
      have hx := hl x (by simp)
      rw [List.map_cons, List.sum_cons, List.prod_cons, i1, Real.log_mul hx.ne' i2.ne']
      exact ⟨by ring, by positivity⟩
  obtain ⟨e1, e2⟩ := hl ss ss.sum fun s hs => (h s hs).1
  rw [e1, sub_nonneg, div_le_one hpos, neg_le, ← Real.le_log_iff_exp_le e2]

example : ∃ p rest, (SimplexVector.fromDraws (([1, 1] : List ℝ).map F64.fin)).ps = p :: rest ∧ 0 ≤ p := by
  obtain ⟨p, rest, h1, h2⟩ := C10_simplex_sample_iff [1, 1] (by simp) (by simp)
  refine ⟨p, rest, h1, h2.2 ?_⟩
  simp only [List.sum_cons, List.sum_nil, List.prod_cons, List.prod_nil]
  exact (Real.exp_le_one_iff.2 (by norm_num)).trans_eq (by norm_num)
end

/-- C10: with no classes at all there is nothing to sample: the call panics before drawing. -/
theorem C10_simplex_sample_empty [FP] {σ : Type} (draw : σ → F64 × σ) (s : σ) :
    ∃ e, SimplexVector.sample draw 0 s = (.error e, s) := ⟨_, rfl⟩

/-! ### rounded arithmetic -/
section
variable [FP] [FP.Lawful]

/-- C264: whatever the rounding, an integer power `n ≥ 0` of a probability is a probability, and grows with it. -/
theorem C264_powi {p q : Probability} (hp : p.isValid) (hq : q.isValid) (hpq : p.unwrap ≤ q.unwrap) (n : ℕ) :
    InUnit (p.powi n) ∧ InUnit (q.powi n) ∧ p.powi n ≤ q.powi n := by
  rw [C01_is_valid_iff] at hp hq
  obtain ⟨r, hr, r0, r1⟩ := hp
  obtain ⟨s, hs, s0, s1⟩ := hq
  have hrs := (hr.le_iff hs).1 hpq
  obtain ⟨z, z', w1, w2, w3, w4, w5⟩ := powiLoop_mono n hr hs Is.one Is.one r0 hrs s1 zero_le_one le_rfl le_rfl
  have hp : ∀ c : F64, F64.powi c (n : ℤ) = F64.powiLoop c 1 n := fun c => by
    unfold F64.powi; rw [if_neg (by omega)]; rfl
  refine ⟨⟨z, ?_, w3, w4.trans w5⟩, ⟨z', ?_, w3.trans w4, w5⟩, ?_⟩
  · show (F64.powi _ _).Is _; rw [hp]; exact w1
  · show (F64.powi _ _).Is _; rw [hp]; exact w2
  · show F64.powi _ _ ≤ F64.powi _ _; rw [hp, hp]; exact (w1.le_iff w2).2 w4

/-- C264: the sum of up to 2^53 valid probabilities is a number between 0 and their count; while it stays below 2 it is within
`n 2^-51` of the true sum. -/
theorem C264_sum_float (ps : List Probability) (hs : ∀ q ∈ ps, q.isValid) (hn : ps.length ≤ 2 ^ 53) :
    ∃ y, (Probability.sum ps).Is y ∧ 0 ≤ y ∧ y ≤ ps.length ∧
      (y ≤ 2 → |y - (ps.map fun p => p.unwrap.toReal).sum| ≤ ps.length / 2 ^ 51) := by
  obtain ⟨y, y1, -, y3, y4, y5⟩ := foldl_unit (ps.map Probability.unwrap) 0 0 0 (fun p hp => by
    obtain ⟨q, hq, rfl⟩ := List.mem_map.1 hp
    exact ⟨(hs q hq).2, (hs q hq).1⟩) Is.zero rnd_zero le_rfl (by simp) (by simpa using hn)
  refine ⟨y, y1, y3, by simpa using y4, fun h2 => ?_⟩
  have := y5 h2
  rw [zero_add, List.map_map, List.length_map] at this
  refine this.trans (le_of_eq ?_)
  ring

/-- C264: replacing probabilities by larger ones never makes the sum smaller. -/
theorem C264_sum_mono {A : Type} (l : List A) (f g : A → Probability) (hf : ∀ a ∈ l, (f a).isValid) (hfg : ∀ a ∈ l, (f a).unwrap ≤ (g a).unwrap) :
    Probability.sum (l.map f) ≤ Probability.sum (l.map g) := by
  have := (foldl_nn_mono l (fun a => (f a).unwrap) (fun a => (g a).unwrap) (fun a ha => (hf a ha).2) hfg 0 0
    ((Is.zero.le_iff Is.zero).2 le_rfl) ((Is.zero.le_iff Is.zero).2 le_rfl)).2
  unfold Probability.sum F64.sum
  rw [List.map_map, List.map_map]
  exact this

variable [FP.Libm]

/-- C264: whatever the rounding, a power `e ≥ 0` of a probability (plus infinity included) is a probability; for finite `e` it
grows with the probability. -/
theorem C264_powf {p : Probability} (hp : p.isValid) {e : F64} (he : 0 ≤ e) :
    InUnit (p.powf e) ∧ ∀ q : Probability, q.isValid → p.unwrap ≤ q.unwrap → (∃ s, e.Is s) → p.powf e ≤ q.powf e := by
  refine ⟨(unit_iff _).1 ⟨powf_nn_of hp.2 he, powf_le1_of hp.2 hp.1 he⟩, fun q hq hpq ⟨s, hs⟩ => ?_⟩
  have h0 := (Is.zero.le_iff hs).1 he
  rcases h0.eq_or_lt with rfl | h0
  · have : ∀ c : F64, c.powf e = fin 1 := fun c => by
      unfold F64.powf
      rw [if_pos (by rcases hs with rfl | ⟨rfl, _⟩ <;> simp)]
    show p.val.powf e ≤ q.val.powf e
    rw [this, this]; exact le_rfl' (by simp)
  · exact (powf_mono hs h0 hp.2 hpq).2

/-- C264: the natural logarithm of a probability is never NaN, never positive, and grows with it. -/
theorem C264_ln {p q : Probability} (hp : p.isValid) (hq : q.isValid) (hpq : p.unwrap ≤ q.unwrap) :
    p.ln ≠ nan ∧ p.ln ≤ q.ln ∧ q.ln ≤ 0 := by
  have h1 := ln_mono hp.2 hpq
  have h2 := ln_mono hq.2 hq.1
  have h3 : (1 : F64).ln.Is 0 := by
    show (F64.ln (fin 1)).Is 0
    unfold F64.ln F64.logWith
    dsimp only
    rw [if_neg one_ne_zero, if_neg (by norm_num), FP.Libm.ln_one]
    exact round_zero_is
  refine ⟨fun h => ?_, h1, le_congr rfl h3.ext_eq h2⟩
  unfold Probability.ln at *
  rw [h] at h1
  exact absurd h1 (by simp)

example : (⟨fin (1/2)⟩ : Probability).isValid ∧ (⟨fin 1⟩ : Probability).isValid ∧ (⟨fin (1/2)⟩ : Probability).unwrap ≤ (⟨fin 1⟩ : Probability).unwrap :=
  ⟨⟨(Is.fin _).le_iff Is.one |>.2 (by norm_num), (Is.zero).le_iff (Is.fin _) |>.2 (by norm_num)⟩,
   ⟨(Is.fin _).le_iff Is.one |>.2 (by norm_num), (Is.zero).le_iff (Is.fin _) |>.2 (by norm_num)⟩, (Is.fin _).le_iff (Is.fin _) |>.2 (by norm_num)⟩
end
end Rstat
