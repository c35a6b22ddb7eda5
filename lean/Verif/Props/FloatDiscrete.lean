import Verif.Props.FloatPmf3
import Verif.Props.MixtureFloat

/-! Property C262: categorical, geometric and binomial distribution functions in rounded arithmetic, and how they depend on the
success probability. -/
set_option linter.unusedSectionVars false
namespace Rstat
open F64 Spec

section
variable [FP] [FP.Lawful]

/-- the running sums of accepted weights -/
theorem cat_sums {ps : List F64} (hu : ∀ p ∈ ps, InUnit p) (hK : ps.length ≤ 2 ^ 53) (i j : ℕ) (hij : i ≤ j) :
    ∃ y z, (F64.sum (ps.take i)).Is y ∧ (F64.sum (ps.take j)).Is z ∧ 0 ≤ y ∧ y ≤ z ∧
      (y ≤ 2 → |y - ((ps.take i).map toReal).sum| ≤ i / 2 ^ 51) := by
  have hu' : ∀ p ∈ ps, 0 ≤ p ∧ p ≤ 1 := fun p hp => (unit_iff p).2 (hu p hp)
  obtain ⟨y, y1, y2, y3, y4, y5⟩ := foldl_unit (ps.take i) 0 0 0 (fun p hp => hu' p (List.mem_of_mem_take hp)) Is.zero rnd_zero le_rfl (by simp)
    (by rw [List.length_take]; omega)
  have hs : ps.take j = ps.take i ++ (ps.take j).drop i := by
    conv_lhs => rw [← List.take_append_drop i (ps.take j)]
    rw [List.take_take, min_eq_left hij]
  obtain ⟨z, z1, -, z3, -⟩ := foldl_unit ((ps.take j).drop i) (ps.take i).length (F64.sum (ps.take i)) y
    (fun p hp => hu' p (List.mem_of_mem_take (List.mem_of_mem_drop hp))) y1 y2 y3 (by simpa using y4)
    (by rw [List.length_drop, List.length_take, List.length_take]; omega)
  refine ⟨y, z, y1, ?_, y3, z3, fun hy => ?_⟩
  · rw [hs]; unfold F64.sum; rw [List.foldl_append]; exact z1
  · have := y5 hy
    rw [zero_add] at this
    refine this.trans ?_
    have : ((ps.take i).length : ℝ) ≤ i := by rw [List.length_take]; exact_mod_cast min_le_left _ _
    rw [mul_one_div]
    gcongr

/-- the whole computed sum is within the tolerance of one -/
theorem cat_total {ps : List F64} {d : Categorical} (h : Categorical.new ps = .ok d) {y : ℝ} (hy : (F64.sum ps).Is y) (hb : y ≤ 2 ^ 53) (h0 : 0 ≤ y) :
    |y - 1| ≤ 10002 / 10 ^ 9 := by
  obtain ⟨-, -, ht⟩ := (C05_simplex_new_iff ps d.ps).1 (Categorical.new_ok.1 h)
  obtain ⟨t, t1, -, t3⟩ := tol_is
  have hsub := sub_is hy Is.one (not_huge_of_le (2 ^ 53) (by norm_num) (by rw [abs_le]; push_cast; norm_num at hb ⊢; constructor <;> linarith))
  have hlt : |FP.rnd (y - 1)| < t := (hsub.abs.lt_iff t1).1 ht
  have he := FP.Lawful.rnd_err (y - 1)
  have hη : (1:ℝ) / 2 ^ 1075 ≤ 1 / 2 ^ 60 := one_div_le_one_div_of_le (by positivity) (pow_le_pow_right₀ (by norm_num) (by norm_num))
  generalize (1:ℝ) / 2 ^ 1075 = η at *
  have h1 : |y - 1| ≤ |FP.rnd (y - 1)| + |FP.rnd (y - 1) - (y - 1)| := by
    have := abs_sub_abs_le_abs_sub (y - 1) (FP.rnd (y - 1)); rw [abs_sub_comm (y - 1)] at this; linarith
  generalize |FP.rnd (y - 1) - (y - 1)| = e at *
  generalize |FP.rnd (y - 1)| = u at *
  generalize |y - 1| = v at *
  norm_num at *
  linarith

/-- C262 categorical (in part): for every accepted weight vector the distribution function is nowhere NaN, starts at 0, is non-decreasing,
ends within 1.0002e-5 of 1, never exceeds that, and is within `i 2^-51` of the sum of the first `i` weights. -/
theorem C262_categorical_partial {ps : List F64} {d : Categorical} (h : Categorical.new ps = .ok d) (hK : ps.length ≤ 2 ^ 53) :
    (d.cdf 0).unwrap.Is 0 ∧
    (∀ i, ∃ y, (d.cdf i).unwrap.Is y ∧ 0 ≤ y ∧ y ≤ 1 + 10002 / 10 ^ 9 ∧ |y - ((ps.take i).map toReal).sum| ≤ i / 2 ^ 51 ∧
      (ps.length ≤ i → 1 - 10002 / 10 ^ 9 ≤ y)) ∧
    (∀ i j, i ≤ j → (d.cdf i).unwrap ≤ (d.cdf j).unwrap) := by
  obtain ⟨e1, e2⟩ := Categorical.ps_eq h
  have hc : ∀ i, (d.cdf i).unwrap = F64.sum (ps.take i) := fun i => by show F64.sum (d.ps.ps.take i) = _; rw [e1]
  have htot : ∀ z, (F64.sum ps).Is z → |z - 1| ≤ 10002 / 10 ^ 9 := fun z hz => by
    have hu' : ∀ p ∈ ps, 0 ≤ p ∧ p ≤ 1 := fun p hp => (unit_iff p).2 (e2 p hp)
    obtain ⟨y, y1, -, y3, y4, -⟩ := foldl_unit ps 0 0 0 hu' Is.zero rnd_zero le_rfl (by simp) (by omega)
    obtain rfl := hz.toReal_eq.symm.trans y1.toReal_eq
    refine cat_total h hz (y4.trans ?_) y3
    have : (ps.length : ℝ) ≤ 2 ^ 53 := by exact_mod_cast hK
    simpa using this
  refine ⟨by rw [hc]; exact Is.zero, fun i => ?_, fun i j hij => ?_⟩
  · obtain ⟨y, z, y1, z1, y0, yz, ye⟩ := cat_sums e2 hK i (max i ps.length) (le_max_left _ _)
    rw [List.take_of_length_le (le_max_right _ _)] at z1
    have hz := htot z z1
    rw [abs_le] at hz
    refine ⟨y, by rw [hc]; exact y1, y0, by linarith, ye (by norm_num at hz ⊢; linarith), fun hi => ?_⟩
    rw [List.take_of_length_le hi] at y1
    have := htot y y1
    rw [abs_le] at this
    linarith
  · obtain ⟨y, z, y1, z1, y0, yz, -⟩ := cat_sums e2 hK i j hij
    rw [hc, hc]
    exact (y1.le_iff z1).2 yz

/-- repeated squaring is monotone in the base and in the accumulator, on the unit interval -/
theorem powiLoop_mono : ∀ (n : ℕ) {a a' r r' : F64} {x x' y y' : ℝ}, a.Is x → a'.Is x' → r.Is y → r'.Is y' → 0 ≤ x → x ≤ x' → x' ≤ 1 →
    0 ≤ y → y ≤ y' → y' ≤ 1 → ∃ z z', (F64.powiLoop a r n).Is z ∧ (F64.powiLoop a' r' n).Is z' ∧ 0 ≤ z ∧ z ≤ z' ∧ z' ≤ 1 := by
  intro n
  induction n using Nat.strong_induction_on with
  | _ n ih =>
    intro a a' r r' x x' y y' ha ha' hr hr' x0 xx x1 y0 yy y1
    have hm : ∀ {a b : F64} {x y : ℝ}, a.Is x → b.Is y → 0 ≤ x → x ≤ 1 → 0 ≤ y → y ≤ 1 →
        (a * b).Is (FP.rnd (x * y)) ∧ 0 ≤ FP.rnd (x * y) ∧ FP.rnd (x * y) ≤ 1 := fun ha hb x0 x1 y0 y1 => by
      have h0 := mul_nonneg x0 y0
      have h1 := mul_le_one₀ x1 y0 y1
      exact ⟨mul_is ha hb (not_huge_of_le 1 (by norm_num) (by rw [abs_of_nonneg h0]; push_cast; exact h1)), rnd_nn h0, rnd_le_1 h1⟩
    obtain ⟨s1, s2, s3⟩ := hm hr ha y0 (yy.trans y1) x0 (xx.trans x1)
    obtain ⟨s1', s2', s3'⟩ := hm hr' ha' (y0.trans yy) y1 (x0.trans xx) x1
    obtain ⟨q1, q2, q3⟩ := hm ha ha x0 (xx.trans x1) x0 (xx.trans x1)
    obtain ⟨q1', q2', q3'⟩ := hm ha' ha' (x0.trans xx) x1 (x0.trans xx) x1
    have qq : FP.rnd (x * x) ≤ FP.rnd (x' * x') := FP.Lawful.rnd_mono (mul_le_mul xx xx x0 (x0.trans xx))
    have ss : FP.rnd (y * x) ≤ FP.rnd (y' * x') := FP.Lawful.rnd_mono (mul_le_mul yy xx x0 (y0.trans yy))
    rw [F64.powiLoop.eq_1 a r n, F64.powiLoop.eq_1 a' r' n]
    by_cases h : n / 2 = 0
    · simp only [h, dite_true]
      by_cases h2 : n % 2 = 1
      · simp only [h2, if_true]; exact ⟨_, _, s1, s1', s2, ss, s3'⟩
      · simp only [h2, if_false]; exact ⟨_, _, hr, hr', y0, yy, y1⟩
    · simp only [h, dite_false]
      by_cases h2 : n % 2 = 1
      · simp only [h2, if_true]; exact ih _ (by omega) q1 q1' s1 s1' q2 qq q3' s2 ss s3'
      · simp only [h2, if_false]; exact ih _ (by omega) q1 q1' hr hr' q2 qq q3' y0 yy y1

/-- C262 geometric: below 2^31 - 1 failures the distribution function is a probability, and it is non-decreasing in the success probability. -/
theorem C262_geometric {a b : F64} {p q : ℝ} {d e : Geometric} (h : Geometric.new a = .ok d) (h' : Geometric.new b = .ok e)
    (ha : a.Is p) (hb : b.Is q) (hpq : p ≤ q) (pr : Profile) {k : ℕ} (hk : k < 2 ^ 31 - 1) :
    ∃ P Q, d.cdf pr k = .ok P ∧ e.cdf pr k = .ok Q ∧ InUnit P.unwrap ∧ InUnit Q.unwrap ∧ P.unwrap ≤ Q.unwrap := by
  obtain ⟨h0, rfl⟩ := Geometric.new_ok.1 h
  obtain ⟨h0', rfl⟩ := Geometric.new_ok.1 h'
  have p0 := (Is.zero.le_iff ha).1 h0.1
  have q1 := (hb.le_iff Is.one).1 h0'.2
  obtain ⟨u1, u2, -⟩ := inUnit_sub ha p0 (hpq.trans q1)
  obtain ⟨v1, v2, -⟩ := inUnit_sub hb (p0.trans hpq) q1
  obtain ⟨z, z', w1, w2, w3, w4, w5⟩ := powiLoop_mono (k + 1) v1 u1 Is.one Is.one v2.1 (FP.Lawful.rnd_mono (by linarith)) u2.2 zero_le_one le_rfl le_rfl
  have hc : i32chk pr (i32wrap k + 1) = .ok ((k + 1 : ℕ) : ℤ) := by
    rw [geom_wrap_small (by omega)]; unfold i32chk; rw [if_pos (by omega)]; push_cast; rfl
  have hp : ∀ c : F64, F64.powi (1 - c) ((k + 1 : ℕ) : ℤ) = F64.powiLoop (1 - c) (fin 1) (k + 1) := fun c => by
    unfold F64.powi; rw [if_neg (by omega)]; rfl
  obtain ⟨f1, f2, -⟩ := inUnit_sub w2 (w3.trans w4) w5
  obtain ⟨g1, g2, -⟩ := inUnit_sub w1 w3 (w4.trans w5)
  refine ⟨⟨1 - F64.powi (1 - a) ((k + 1 : ℕ) : ℤ)⟩, ⟨1 - F64.powi (1 - b) ((k + 1 : ℕ) : ℤ)⟩, ?_, ?_, ?_, ?_, ?_⟩
  · unfold Geometric.cdf; rw [hc]; rfl
  · unfold Geometric.cdf; rw [hc]; rfl
  · exact ⟨_, by rw [hp]; exact f1, f2⟩
  · exact ⟨_, by rw [hp]; exact g1, g2⟩
  · show (1 - F64.powi (1 - a) ((k + 1 : ℕ) : ℤ) : F64) ≤ 1 - F64.powi (1 - b) ((k + 1 : ℕ) : ℤ)
    rw [hp, hp]
    exact (f1.le_iff g1).2 (FP.Lawful.rnd_mono (by linarith))

/-- C262 binomial: for counts below the number of trials the distribution function is a probability, and it is non-increasing in the
success probability. -/
theorem C262_binomial [FP.SpecialFns] {n : ℕ} {A B : Probability} {p q : ℝ} {d e : Binomial} (h : Binomial.new n A = .ok d) (h' : Binomial.new n B = .ok e)
    (ha : A.val.Is p) (hb : B.val.Is q) (hpq : p ≤ q) (pr : Profile) {k : ℕ} (hk : k < n) (hn : n < 2 ^ 64) :
    ∃ P Q, d.cdf pr k = .ok P ∧ e.cdf pr k = .ok Q ∧ InUnit P.unwrap ∧ InUnit Q.unwrap ∧ Q.unwrap ≤ P.unwrap := by
  obtain ⟨h0, rfl⟩ := Binomial.new_ok.1 h
  obtain ⟨h0', rfl⟩ := Binomial.new_ok.1 h'
  have p0 := (Is.zero.le_iff ha).1 h0.1
  have q1 := (hb.le_iff Is.one).1 h0'.2
  obtain ⟨u1, u2, -⟩ := inUnit_sub ha p0 (hpq.trans q1)
  obtain ⟨v1, v2, -⟩ := inUnit_sub hb (p0.trans hpq) q1
  obtain ⟨r, hr, r0⟩ : ∃ r, (F64.ofNat (n - k)).Is r ∧ 0 < r := by
    obtain ⟨r, hr, r0⟩ := ofNat_pos (n := n - k) (by omega) (by omega); rw [hr]; exact ⟨r, Is.fin r, by linarith⟩
  obtain ⟨s, hs, s0⟩ : ∃ s, (F64.ofNat (k + 1)).Is s ∧ 0 < s := by
    obtain ⟨r, hr, r0⟩ := ofNat_pos (n := k + 1) (by omega) (by omega); rw [hr]; exact ⟨r, Is.fin r, by linarith⟩
  have uv : (1 - B.val : F64) ≤ 1 - A.val := (v1.le_iff u1).2 (FP.Lawful.rnd_mono (by linarith))
  have e1 := FP.SpecialFns.betainc_mono _ _ _ _ r s hr hs r0 s0 (Is.zero.le_iff v1 |>.2 v2.1) uv (u1.le_iff Is.one |>.2 u2.2)
  have l1 := FP.SpecialFns.betainc_mono _ _ _ _ r s hr hs r0 s0 (Is.zero.le_iff Is.zero |>.2 le_rfl) (Is.zero.le_iff v1 |>.2 v2.1) (v1.le_iff Is.one |>.2 v2.2)
  have l2 := FP.SpecialFns.betainc_mono _ _ _ _ r s hr hs r0 s0 (Is.zero.le_iff u1 |>.2 u2.1) (u1.le_iff Is.one |>.2 u2.2) (Is.one.le_iff Is.one |>.2 le_rfl)
  have z0 := FP.SpecialFns.betainc_zero _ _ _ r s hr hs r0 s0 Is.zero
  have z1 := FP.SpecialFns.betainc_one _ _ _ r s hr hs r0 s0 Is.one
  have hc : ∀ C : Probability, Binomial.cdf ⟨n, C, C.not⟩ pr k =
      .ok ⟨FP.sBetainc (1 - C.val) (F64.ofNat (n - k)) (F64.ofNat (k + 1))⟩ := fun C => by
    unfold Binomial.cdf
    rw [usub_ok hk.le, exc_ok_bind, uadd_ok (by have : U64 = 2 ^ 64 := rfl; omega), exc_ok_bind]
    rfl
  have hin : ∀ {x y z : F64}, x.Is 0 → z.Is 1 → x ≤ y → y ≤ z → InUnit y := fun {x y z} hx hz h1 h2 => by
    refine (unit_iff y).1 ⟨le_congr (hx.ext_eq.trans Is.zero.ext_eq.symm) rfl h1, le_congr rfl (hz.ext_eq.trans Is.one.ext_eq.symm) h2⟩
  refine ⟨_, _, hc A, hc B, ?_, ?_, e1⟩
  · exact hin z0 z1 (le_trans' l1 e1) l2
  · exact hin z0 z1 l1 (le_trans' e1 l2)

/-- C262 categorical (violated): the tolerance of the check lets the distribution function exceed 1: whatever the rounding, for the accepted
weights `1, m 2^-52` with `1 ≤ m ≤ 2^35` every value from index 2 on is `1 + m 2^-52`, which is not a probability. -/
theorem C262_categorical_violated {m : ℕ} (h1 : 1 ≤ m) (h2 : m ≤ 2 ^ 35) :
    ∃ d, Categorical.new [fin 1, fin (m / 2 ^ 52)] = .ok d ∧
      ∀ i ≥ 2, (d.cdf i).unwrap.Is (1 + m / 2 ^ 52) ∧ ¬ InUnit (d.cdf i).unwrap := by
  have m1 : (1 : ℝ) ≤ m := by exact_mod_cast h1
  have m2 : (m : ℝ) ≤ 2 ^ 35 := by exact_mod_cast h2
  have p0 : (0 : ℝ) < m / 2 ^ 52 := by positivity
  have p1 : (m : ℝ) / 2 ^ 52 ≤ 1 / 2 ^ 17 := by
    rw [div_le_iff₀ (by positivity)]; refine m2.trans (le_of_eq (by norm_num))
  have hd := FP.Lawful.rnd_dyadic (2 ^ 52 + m) 52 (by
    rw [abs_of_nonneg (by positivity)]; have : (m : ℤ) ≤ 2 ^ 35 := by exact_mod_cast h2
    norm_num at this ⊢; linarith) (by norm_num)
  have hd' := FP.Lawful.rnd_dyadic m 52 (by
    rw [abs_of_nonneg (by positivity)]; have : (m : ℤ) ≤ 2 ^ 35 := by exact_mod_cast h2
    norm_num at this ⊢; linarith) (by norm_num)
  push_cast at hd hd'
  have e1 : ((4503599627370496:ℝ) + m) / 2 ^ 52 = 1 + m / 2 ^ 52 := by rw [add_div]; norm_num
  rw [e1] at hd
  have hs : (F64.sum [fin 1, fin (m / 2 ^ 52)]).Is (1 + m / 2 ^ 52) := by
    have a1 : ((0 : F64) + fin 1).Is 1 := by
      have := add_is Is.zero (Is.fin 1) (not_huge_of_le 1 (by norm_num) (by norm_num)); rwa [zero_add, rnd_one] at this
    have a2 := add_is a1 (Is.fin (m / 2 ^ 52)) (not_huge_of_le 2 (by norm_num) (by
      rw [abs_of_pos (by positivity)]; norm_num at p1 ⊢; linarith))
    rw [hd] at a2
    exact a2
  have hok : SimplexVector.new [fin 1, fin (m / 2 ^ 52)] = .ok ⟨[fin 1, fin (m / 2 ^ 52)]⟩ := by
    refine (C05_simplex_new_iff _ _).2 ⟨rfl, ?_, ?_⟩
    · intro p hp
      simp only [List.mem_cons, List.not_mem_nil, or_false] at hp
      rcases hp with rfl | rfl
      · exact ⟨_, Is.fin _, by norm_num, by norm_num⟩
      · exact ⟨_, Is.fin _, p0.le, by norm_num at p1 ⊢; linarith⟩
    · obtain ⟨t, t1, t2, -⟩ := tol_is
      have a3 := sub_is hs Is.one (not_huge_of_le 1 (by norm_num) (by
        rw [add_sub_cancel_left, abs_of_pos p0]; norm_num at p1 ⊢; linarith))
      rw [add_sub_cancel_left, hd'] at a3
      refine (a3.abs.lt_iff t1).2 ?_
      rw [abs_of_pos p0]
      have hlit : (SimplexVector.tol).Is (FP.rnd (1 / 100000)) := round_is_of_le 1 (by norm_num) (by norm_num [abs_of_pos])
      have ht : t = FP.rnd (1 / 100000) := t1.toReal_eq.symm.trans hlit.toReal_eq
      have he := FP.Lawful.rnd_err (1 / 100000 : ℝ)
      have hη : (1:ℝ) / 2 ^ 1075 ≤ 1 / 2 ^ 60 := one_div_le_one_div_of_le (by positivity) (pow_le_pow_right₀ (by norm_num) (by norm_num))
      generalize (1:ℝ) / 2 ^ 1075 = η at *
      rw [← ht, abs_le] at he
      norm_num [abs_of_pos] at he hη p1 ⊢
      linarith [he.1]
  refine ⟨⟨⟨[fin 1, fin (m / 2 ^ 52)]⟩⟩, Categorical.new_ok.2 hok, fun i hi => ?_⟩
  have hc : (Categorical.cdf ⟨⟨[fin 1, fin (m / 2 ^ 52)]⟩⟩ i).unwrap = F64.sum [fin 1, fin (m / 2 ^ 52)] := by
    show F64.sum (List.take i _) = _
    rw [List.take_of_length_le (by simpa using hi)]
  rw [hc]
  refine ⟨hs, ?_⟩
  rintro ⟨r, hr, -, r1⟩
  have := hs.toReal_eq.symm.trans hr.toReal_eq
  linarith

end

section
open B64
attribute [local instance] binary64 binary64_lawful
/-- C262 (non-vacuity): two equal weights, in binary64. -/
example : ∃ d, Categorical.new [fin (1 / 2), fin (1 / 2)] = .ok d := by
  obtain ⟨m, hm⟩ := half_weights_ok (D := logisticComp) ⟨fin 0, fin 1⟩ ⟨fin 3, fin 2⟩
  exact ⟨⟨_⟩, Categorical.new_ok.2 (Mixture.new_ok _ _ _ _ hm).2.2.1⟩
/-- C262 (non-vacuity): a geometric and a binomial law with p = 1/2. -/
example : ∃ d, Geometric.new (fin (1 / 2)) = .ok d :=
  ⟨_, Geometric.new_ok.2 ⟨⟨Is.zero.le_iff (Is.fin _) |>.2 (by norm_num), (Is.fin _).le_iff Is.one |>.2 (by norm_num)⟩, rfl⟩⟩
example : ∃ d, Binomial.new 5 ⟨fin (1 / 2)⟩ = .ok d :=
  ⟨_, Binomial.new_ok.2 ⟨⟨Is.zero.le_iff (Is.fin _) |>.2 (by norm_num), (Is.fin _).le_iff Is.one |>.2 (by norm_num)⟩, rfl⟩⟩
end
end Rstat
