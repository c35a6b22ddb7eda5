import Verif.Model.Multi
import Verif.Lemmas.Multinomial
import Verif.Lemmas.Consts
import Verif.Lemmas.DistBase
import Verif.Lemmas.Utils
import Verif.Lemmas.MaxMin
import Verif.Props.Probability

/-! Properties C102, C103, C183, C184: the multinomial law. -/
set_option linter.unusedSectionVars false
namespace Rstat
open F64 Spec

variable {N : ℕ}

theorem Multinomial.new_ok [FP] {n : ℕ} {ps : Fin N → F64} {d : Multinomial N} :
    Multinomial.new n ps = .ok d ↔ (∃ v, SimplexVector.new (List.ofFn ps) = .ok v) ∧ d = ⟨n, ps⟩ := by
  simp only [Multinomial.new, exc_bind_ok, SimplexVector.newE, mapError_ok_iff, Count.newU_ok]
  constructor
  · rintro ⟨_, rfl, v, h0, h⟩; cases h; exact ⟨⟨v, h0⟩, rfl⟩
  · rintro ⟨⟨v, h⟩, rfl⟩; exact ⟨_, rfl, v, h, rfl⟩

/-- accepted weights lie in [0, 1] -/
theorem Multinomial.range [FP] {n : ℕ} {ps : Fin N → F64} {d : Multinomial N} (h : Multinomial.new n ps = .ok d)
    {p : Fin N → ℝ} (hp : ∀ i, (ps i).Is (p i)) (i : Fin N) : 0 ≤ p i ∧ p i ≤ 1 := by
  obtain ⟨⟨v, hv⟩, _⟩ := Multinomial.new_ok.1 h
  obtain ⟨r, hr, h0⟩ := ((C05_simplex_new_iff _ v).1 hv).2.1 (ps i) (List.mem_ofFn.2 ⟨i, rfl⟩)
  rwa [hr.eq (hp i)] at h0

section
variable [FP] [FP.Exact] {n : ℕ} {ps : Fin N → F64} {d : Multinomial N} {p : Fin N → ℝ}

/-- C102: for accepted weights with real values `p` summing to 1, `mean`, `variance` and `covariance` are the moments of
the multinomial law, and `correlation` is the covariance divided by the standard deviations. -/
theorem C102_multinomial_moments (h : Multinomial.new n ps = .ok d) (hp : ∀ i, (ps i).Is (p i)) (h1 : ∑ i, p i = 1) :
    IsPMF (multinomialPMF n p) ∧
    (∀ i, ∃ m, (d.mean i).Is m ∧ HasSum (fun x => (x i : ℝ) * multinomialPMF n p x) m) ∧
    (∀ i, ∃ v, (d.variance i).Is v ∧ HasCovD (multinomialPMF n p) (fun x => (x i : ℝ)) (fun x => (x i : ℝ)) v) ∧
    (∀ i j, ∃ c, (d.covariance i j).Is c ∧ HasCovD (multinomialPMF n p) (fun x => (x i : ℝ)) (fun x => (x j : ℝ)) c) := by
  have hr := Multinomial.range h hp
  obtain ⟨_, rfl⟩ := Multinomial.new_ok.1 h
  refine ⟨multinomial_isPMF (fun i => (hr i).1) h1, fun i => ⟨_, (hp i).mul (Is.ofNat n), ?_⟩, fun i => ⟨_, ((hp i).mul (Is.one.sub (hp i))).mul (Is.ofNat n), ?_⟩,
    fun i j => ⟨if i = j then n * p i * (1 - p i) else -n * p i * p j, ?_, ?_⟩⟩
  · rw [mul_comm]; exact multinomial_mean h1 i
  · refine ⟨_, _, multinomial_mean h1 i, multinomial_mean h1 i, ?_⟩
    have := multinomial_cov (n := n) h1 i i
    rw [if_pos rfl] at this
    rwa [show p i * (1 - p i) * (n : ℝ) = n * p i * (1 - p i) by ring]
  · unfold Multinomial.covariance
    dsimp only
    split_ifs with hij
    · exact ((Is.ofNat n).mul (hp i)).mul (Is.one.sub (hp i))
    · exact ((Is.ofNat n).neg.mul (hp i)).mul (hp j)
  · exact ⟨_, _, multinomial_mean h1 i, multinomial_mean h1 j, multinomial_cov h1 i j⟩

/-- C102: `correlation` is 1 on the diagonal, and off the diagonal it is the covariance divided by the two standard deviations
(n ≥ 1 and categories that are neither impossible nor certain) -/
theorem C102_multinomial_correlation (h : Multinomial.new n ps = .ok d) (hp : ∀ i, (ps i).Is (p i)) (hn : 1 ≤ n)
    (i j : Fin N) (hi : 0 < p i ∧ p i < 1) (hj : 0 < p j ∧ p j < 1) :
    ∃ r c vi vj : ℝ, (d.correlation i j).Is r ∧ (d.covariance i j).Is c ∧ (d.variance i).Is vi ∧ (d.variance j).Is vj ∧
      0 < vi ∧ 0 < vj ∧ r = c / (Real.sqrt vi * Real.sqrt vj) ∧ (i = j → r = 1) := by
  obtain ⟨_, rfl⟩ := Multinomial.new_ok.1 h
  have hn' : (0:ℝ) < n := by exact_mod_cast hn
  have e1 : 0 < 1 - p i := by linarith
  have e2 : 0 < 1 - p j := by linarith
  have vi0 : 0 < p i * (1 - p i) * (n:ℝ) := mul_pos (mul_pos hi.1 e1) hn'
  have vj0 : 0 < p j * (1 - p j) * (n:ℝ) := mul_pos (mul_pos hj.1 e2) hn'
  refine ⟨if i = j then 1 else -Real.sqrt (p i * p j / (1 - p i) / (1 - p j)),
    if i = j then n * p i * (1 - p i) else -n * p i * p j, p i * (1 - p i) * n, p j * (1 - p j) * n, ?_, ?_,
    ((hp i).mul (Is.one.sub (hp i))).mul (Is.ofNat n), ((hp j).mul (Is.one.sub (hp j))).mul (Is.ofNat n), vi0, vj0, ?_,
    fun hij => if_pos hij⟩
  · unfold Multinomial.correlation
    split_ifs with hij
    · exact Is.one
    · exact (((((hp i).mul (hp j)).div (Is.one.sub (hp i)) e1.ne').div (Is.one.sub (hp j)) e2.ne').sqrt
        (div_nonneg (div_nonneg (mul_nonneg hi.1.le hj.1.le) e1.le) e2.le)).neg
  · unfold Multinomial.covariance
    dsimp only
    split_ifs with hij
    · exact ((Is.ofNat n).mul (hp i)).mul (Is.one.sub (hp i))
    · exact ((Is.ofNat n).neg.mul (hp i)).mul (hp j)
  · by_cases hij : i = j
    · subst hij
      rw [if_pos rfl, if_pos rfl, Real.mul_self_sqrt vi0.le]
      rw [eq_div_iff vi0.ne']; ring
    · rw [if_neg hij, if_neg hij, ← Real.sqrt_mul vi0.le, neg_mul, neg_mul, neg_div]
      congr 1
      have hpos : 0 < (n:ℝ) * p i * p j := mul_pos (mul_pos hn' hi.1) hj.1
      have hs : 0 < Real.sqrt (p i * (1 - p i) * n * (p j * (1 - p j) * n)) := Real.sqrt_pos.2 (mul_pos vi0 vj0)
      rw [eq_div_iff hs.ne', ← Real.sqrt_mul (div_nonneg (div_nonneg (mul_nonneg hi.1.le hj.1.le) e1.le) e2.le)]
      rw [show p i * p j / (1 - p i) / (1 - p j) * (p i * (1 - p i) * n * (p j * (1 - p j) * n)) = (n * p i * p j) ^ 2 by
        field_simp]
      exact Real.sqrt_sq hpos.le
end

/-- C102: `variance` is the diagonal of `covariance` and `covariance` is symmetric, for every weight vector -/
theorem C102_multinomial_cov_symm [FP] [FP.Exact] {n : ℕ} {ps : Fin N → F64} {d : Multinomial N} {p : Fin N → ℝ}
    (h : Multinomial.new n ps = .ok d) (hp : ∀ i, (ps i).Is (p i)) (i j : Fin N) :
    ∃ v c : ℝ, (d.variance i).Is v ∧ (d.covariance i i).Is v ∧ (d.covariance i j).Is c ∧ (d.covariance j i).Is c := by
  obtain ⟨_, rfl⟩ := Multinomial.new_ok.1 h
  refine ⟨p i * (1 - p i) * n, if i = j then n * p i * (1 - p i) else -n * p i * p j,
    ((hp i).mul (Is.one.sub (hp i))).mul (Is.ofNat n), ?_, ?_, ?_⟩
  · unfold Multinomial.covariance
    rw [if_pos rfl]
    exact Is.congr (((Is.ofNat n).mul (hp i)).mul (Is.one.sub (hp i))) (by ring)
  · unfold Multinomial.covariance
    dsimp only
    split_ifs with hij
    · exact ((Is.ofNat n).mul (hp i)).mul (Is.one.sub (hp i))
    · exact ((Is.ofNat n).neg.mul (hp i)).mul (hp j)
  · unfold Multinomial.covariance
    dsimp only
    by_cases hij : i = j
    · subst hij; rw [if_pos rfl, if_pos rfl]; exact ((Is.ofNat n).mul (hp i)).mul (Is.one.sub (hp i))
    · rw [if_neg hij, if_neg (Ne.symm hij)]; exact Is.congr (((Is.ofNat n).neg.mul (hp j)).mul (hp i)) (by ring)

/-! ### the mass function -/

theorem usumFold_eq (pr : Profile) (l : List ℕ) (hl : ∀ x ∈ l, x < U64) : ∀ a < U64,
    (a + l.sum < U64 → usumFold pr a l = .ok (a + l.sum)) ∧
    (U64 ≤ a + l.sum → usumFold .debug a l = .error .overflow) ∧
    usumFold .release a l = .ok ((a + l.sum) % U64) := by
  induction l with
  | nil =>
    intro a ha
    refine ⟨fun _ => by simp [usumFold], fun h => ?_, by simp [usumFold, Nat.mod_eq_of_lt ha]⟩
    simp only [List.sum_nil, add_zero] at h; omega
  | cons x l ih =>
    intro a ha
    have hx : x < U64 := hl x (by simp)
    have ih' := ih fun y hy => hl y (by simp [hy])
    rw [List.sum_cons]
    by_cases hs : a + x < U64
    · obtain ⟨i1, i2, i3⟩ := ih' (a + x) hs
      have e : ∀ q, usumFold q a (x :: l) = usumFold q (a + x) l := fun q => by
        rw [usumFold]; unfold uadd; rw [if_pos hs]; rfl
      rw [e, e, e, ← add_assoc]
      exact ⟨i1, i2, i3⟩
    · obtain ⟨_, _, i3⟩ := ih' ((a + x) % U64) (Nat.mod_lt _ (by unfold U64; positivity))
      refine ⟨fun h => by omega, fun _ => by rw [usumFold]; unfold uadd; rw [if_neg hs]; rfl, ?_⟩
      rw [usumFold]; unfold uadd; rw [if_neg hs]
      show usumFold .release ((a + x) % U64) l = _
      rw [i3, Nat.mod_add_mod, add_assoc]

theorem list_ofFn_sum (x : Fin N → ℕ) : (List.ofFn x).sum = ∑ i, x i := by rw [List.sum_ofFn]

theorem usum_ofFn (pr : Profile) (x : Fin N → ℕ) (hx : ∑ i, x i < U64) :
    usumFold pr 0 (List.ofFn x) = .ok (∑ i, x i) := by
  have := (usumFold_eq pr (List.ofFn x) (fun y hy => by
    obtain ⟨i, rfl⟩ := List.mem_ofFn.1 hy
    exact (Finset.single_le_sum (f := x) (fun _ _ => Nat.zero_le _) (Finset.mem_univ i)).trans_lt hx) 0
    (by unfold U64; positivity)).1
  rw [list_ofFn_sum, zero_add] at this
  exact this hx

theorem assertEqU_self (n : ℕ) : ∃ r, assertEqU n n = .ok r := by
  exact ⟨n, (assertEqU_ok n n n).2 ⟨rfl, rfl⟩⟩

theorem Multinomial.logPmf_eq [FP] (pr : Profile) (d : Multinomial N) (x : Fin N → ℕ) (hx : ∑ i, x i < U64) :
    d.logPmf pr x = if ∑ i, x i = d.n then .error .explicit else
      .ok ((F64.ofNat d.n + 1).loggamma + (List.ofFn fun i => (x i, d.ps i)).foldl (fun acc xp =>
        acc + (if xp.1 = 0 then 0 else F64.ofNat xp.1 * xp.2.ln) - (F64.ofNat xp.1 + 1).loggamma) 0) := by
  unfold Multinomial.logPmf
  obtain ⟨r, hr⟩ := assertEqU_self N
  rw [hr, usum_ofFn pr x hx]
  rfl

/-- C103 is violated: at every point whose counts add up to `n ≥ 1` - that is, on the whole support of the law - both
`pmf` and `log_pmf` panic. -/
theorem C103_multinomial_pmf_violated [FP] (pr : Profile) {n : ℕ} {ps : Fin N → F64} {d : Multinomial N}
    (h : Multinomial.new n ps = .ok d) (x : Fin N → ℕ) (hx : ∑ i, x i = n) (hn : 1 ≤ n) (hU : n < U64) :
    d.pmf pr x = .error .explicit ∧ d.logPmf pr x = .error .explicit := by
  obtain ⟨_, rfl⟩ := Multinomial.new_ok.1 h
  have hl : (⟨n, ps⟩ : Multinomial N).logPmf pr x = .error .explicit := by
    rw [Multinomial.logPmf_eq pr _ x (hx ▸ hU), if_pos hx]
  refine ⟨?_, hl⟩
  unfold Multinomial.pmf
  rw [usum_ofFn pr x (hx ▸ hU)]
  show (if ∑ i, x i = 0 then _ else _) = _
  rw [if_neg (by omega), hl]; rfl

/-- C103 is violated: at the zero vector `pmf` is 0, also for `n = 0` where the mass is 1. -/
theorem C103_multinomial_zero_violated [FP] (pr : Profile) (d : Multinomial N) :
    d.pmf pr (fun _ => 0) = .ok Probability.zero ∧ ∀ p : Fin N → ℝ, multinomialPMF 0 p (fun _ => 0) = 1 := by
  constructor
  · unfold Multinomial.pmf
    rw [usum_ofFn pr _ (by unfold U64; simp)]
    simp only [Finset.sum_const_zero]; rfl
  · intro p; simp [multinomialPMF]

/-! #### off the support -/

theorem pos_mul_ninf [FP] {a : F64} {r : ℝ} (h : a.Is r) (hr : 0 < r) : a * (ninf : F64) = ninf := by
  rw [h.eq_fin hr.ne']
  show F64.mul (fin r) ninf = ninf
  unfold F64.mul
  simp [F64.sinf, F64.isNeg, hr.ne', not_lt.2 hr.le]
theorem ninf_add [FP] {a : F64} {r : ℝ} (h : a.Is r) : (ninf : F64) + a = ninf := by
  rcases h with rfl | ⟨rfl, _⟩ <;> rfl
theorem add_ninf [FP] {a : F64} {r : ℝ} (h : a.Is r) : a + (ninf : F64) = ninf := by
  rcases h with rfl | ⟨rfl, _⟩ <;> rfl
theorem ninf_sub [FP] {a : F64} {r : ℝ} (h : a.Is r) : (ninf : F64) - a = ninf := by
  show (ninf : F64) + -a = ninf
  exact ninf_add h.neg

/-- value of the accumulated logarithm: finite, or -∞ once an impossible category has been counted -/
theorem mult_fold [FP] [FP.Exact] (x : Fin N → ℕ) (ps : Fin N → F64) (p : Fin N → ℝ) (hp : ∀ i, (ps i).Is (p i))
    (h0 : ∀ i, 0 ≤ p i) : ∀ (l : List (Fin N)) (acc : F64),
    let r := (l.map fun i => (x i, ps i)).foldl (fun acc xp =>
        acc + (if xp.1 = 0 then 0 else F64.ofNat xp.1 * xp.2.ln) - (F64.ofNat xp.1 + 1).loggamma) acc
    (acc = .ninf → r = .ninf) ∧
    (∀ a : ℝ, acc.Is a → ((∃ i ∈ l, p i = 0 ∧ x i ≠ 0) → r = .ninf) ∧
      ((∀ i ∈ l, p i = 0 → x i = 0) →
        r.Is (a + (l.map fun i => x i * Real.log (p i) - Real.log (x i).factorial).sum))) := by
  intro l
  induction l with
  | nil => intro acc; exact ⟨id, fun a ha => ⟨by simp, fun _ => by simpa using ha⟩⟩
  | cons i l ih =>
    intro acc
    have hlg : (F64.ofNat (x i) + 1).loggamma.Is (Real.log (x i).factorial) := by
      have := ((Is.ofNat (x i)).add Is.one).loggamma (by positivity)
      rwa [Real.Gamma_nat_eq_factorial] at this
    have hrest := ih (acc + (if x i = 0 then 0 else F64.ofNat (x i) * (ps i).ln) - (F64.ofNat (x i) + 1).loggamma)
    dsimp only at hrest ⊢
    rw [List.map_cons, List.foldl_cons]
    dsimp only
    have hterm : (if x i = 0 then (0:F64) else F64.ofNat (x i) * (ps i).ln) = .ninf ∧ p i = 0 ∧ x i ≠ 0 ∨
        (if x i = 0 then (0:F64) else F64.ofNat (x i) * (ps i).ln).Is (x i * Real.log (p i)) ∧ (p i = 0 → x i = 0) := by
      by_cases hx : x i = 0
      · right; rw [if_pos hx, hx]; exact ⟨Is.congr Is.zero (by simp), fun _ => rfl⟩
      · rw [if_neg hx]
        rcases (h0 i).eq_or_lt with hz | hz
        · left
          refine ⟨?_, hz.symm, hx⟩
          rw [ln_zero (hz ▸ hp i)]
          exact pos_mul_ninf (Is.ofNat (x i)) (by exact_mod_cast Nat.pos_of_ne_zero hx)
        · right
          exact ⟨(Is.ofNat (x i)).mul ((hp i).ln hz), fun h => absurd h hz.ne'⟩
    rcases hterm with ⟨ht, hz, hx⟩ | ⟨ht, hz⟩
    · constructor
      · intro ha
        exact hrest.1 (by rw [ha, ht]; exact ninf_sub hlg)
      · intro a ha
        refine ⟨fun _ => hrest.1 (by rw [ht, add_ninf ha]; exact ninf_sub hlg), fun hno => absurd (hno i (by simp) hz) hx⟩
    · constructor
      · intro ha
        exact hrest.1 (by rw [ha, ninf_add ht]; exact ninf_sub hlg)
      · intro a ha
        obtain ⟨r1, r2⟩ := hrest.2 _ ((ha.add ht).sub hlg)
        refine ⟨fun ⟨j, hj, hj2⟩ => r1 ?_, fun hall => ?_⟩
        · rcases List.mem_cons.1 hj with rfl | hj
          · exact absurd (hz hj2.1) hj2.2
          · exact ⟨j, hj, hj2⟩
        · refine Is.congr (r2 fun j hj => hall j (by simp [hj])) ?_
          rw [List.map_cons, List.sum_cons]; ring

/-- the formula `n!/Π x_i! · Π p_i^x_i` without the condition on the total -/
theorem mult_exp {n : ℕ} {p : Fin N → ℝ} (x : Fin N → ℕ) (h0 : ∀ i, 0 ≤ p i) (hz : ∀ i, p i = 0 → x i = 0) :
    Real.exp (Real.log n.factorial + ∑ i, (x i * Real.log (p i) - Real.log (x i).factorial)) =
      (n.factorial : ℝ) / (∏ i, ((x i).factorial : ℝ)) * ∏ i, p i ^ x i := by
  rw [Real.exp_add, Real.exp_sum, Real.exp_log (by positivity), div_mul_eq_mul_div, mul_div_assoc, ← Finset.prod_div_distrib]
  congr 1
  refine Finset.prod_congr rfl fun i _ => ?_
  rw [Real.exp_sub, Real.exp_log (by positivity)]
  congr 1
  rcases (h0 i).eq_or_lt with h | h
  · rw [← h, hz i h.symm]; simp
  · rw [mul_comm, Real.exp_mul, Real.exp_log h, Real.rpow_natCast]

/-- C103: what `pmf` does away from the support: at a total other than 0 and `n`, the value of the mass formula ignoring the total
is returned if it is at most 1, and otherwise there is a panic. -/
theorem Multinomial.pmf_off [FP] [FP.Exact] (pr : Profile) {n : ℕ} {ps : Fin N → F64} {d : Multinomial N} {p : Fin N → ℝ}
    (h : Multinomial.new n ps = .ok d) (hp : ∀ i, (ps i).Is (p i)) (x : Fin N → ℕ) (hU : ∑ i, x i < U64)
    (hn : ∑ i, x i ≠ n) (hz : ∑ i, x i ≠ 0) :
    let v := (n.factorial : ℝ) / (∏ i, ((x i).factorial : ℝ)) * ∏ i, p i ^ x i
    (v ≤ 1 → ∃ q : Probability, d.pmf pr x = .ok q ∧ q.val.Is v) ∧ (1 < v → d.pmf pr x = .error .unwrap) := by
  have hr := Multinomial.range h hp
  obtain ⟨_, rfl⟩ := Multinomial.new_ok.1 h
  intro v
  have hl : ∃ l : F64, (⟨n, ps⟩ : Multinomial N).logPmf pr x = .ok l ∧ l.exp.Is v := by
    rw [Multinomial.logPmf_eq pr _ x hU, if_neg hn]
    refine ⟨_, rfl, ?_⟩
    have hlg : (F64.ofNat n + 1).loggamma.Is (Real.log n.factorial) := by
      have := ((Is.ofNat n).add Is.one).loggamma (by positivity)
      rwa [Real.Gamma_nat_eq_factorial] at this
    have e : (List.ofFn fun i => (x i, ps i)) = (List.finRange N).map fun i => (x i, ps i) := List.ofFn_eq_map
    rw [e]
    have hf := (mult_fold x ps p hp (fun i => (hr i).1) (List.finRange N) 0).2 0 Is.zero
    by_cases hc : ∀ i, p i = 0 → x i = 0
    · have := (hlg.add (hf.2 fun i _ => hc i)).exp
      rw [zero_add, ← List.ofFn_eq_map (f := fun i => (x i : ℝ) * Real.log (p i) - Real.log (x i).factorial), List.sum_ofFn, mult_exp x (fun i => (hr i).1) hc] at this
      exact this
    · push Not at hc
      obtain ⟨i, hi, hxi⟩ := hc
      rw [hf.1 ⟨i, List.mem_finRange i, hi, hxi⟩, add_ninf hlg]
      have hv : v = 0 := by
        show _ * _ = _
        rw [Finset.prod_eq_zero (f := fun i => p i ^ x i) (Finset.mem_univ i) (by rw [hi, zero_pow hxi]), mul_zero]
      rw [hv]; exact Is.fin 0
  have hv0 : 0 ≤ v := mul_nonneg (by positivity) (Finset.prod_nonneg fun i _ => pow_nonneg (hr i).1 _)
  obtain ⟨l, h1, h2⟩ := hl
  have hpm : (⟨n, ps⟩ : Multinomial N).pmf pr x = match Probability.new l.exp with
      | .ok p => .ok p
      | .error _ => .error .unwrap := by
    unfold Multinomial.pmf
    rw [usum_ofFn pr x hU]
    show (if ∑ i, x i = 0 then _ else _) = _
    rw [if_neg hz, h1]; rfl
  rw [hpm]
  constructor
  · intro hv
    obtain ⟨q, hq⟩ := (C01_new_accepts_iff l.exp).2 ⟨v, h2, hv0, hv⟩
    rw [hq]
    refine ⟨q, rfl, ?_⟩
    have := C01_new_value _ _ hq
    unfold Probability.unwrap at this
    rwa [this]
  · intro hv
    cases hP : Probability.new l.exp with
    | error e => rfl
    | ok q =>
      obtain ⟨r, hr1, _, hr2⟩ := (C01_new_accepts_iff l.exp).1 ⟨q, hP⟩
      rw [hr1.eq h2] at hr2; linarith

/-- C103 is violated: at every point whose total is neither 0 nor `n` the mass is zero, but (positive weights) `pmf` returns a
positive number or panics. -/
theorem C103_multinomial_off_support_violated [FP] [FP.Exact] (pr : Profile) {n : ℕ} {ps : Fin N → F64} {d : Multinomial N}
    {p : Fin N → ℝ} (h : Multinomial.new n ps = .ok d) (hp : ∀ i, (ps i).Is (p i)) (hpos : ∀ i, 0 < p i) (x : Fin N → ℕ)
    (hU : ∑ i, x i < U64) (hn : ∑ i, x i ≠ n) (hz : ∑ i, x i ≠ 0) :
    multinomialPMF n p x = 0 ∧ ((∃ q v, d.pmf pr x = .ok q ∧ q.val.Is v ∧ 0 < v) ∨ d.pmf pr x = .error .unwrap) := by
  refine ⟨if_neg hn, ?_⟩
  obtain ⟨h1, h2⟩ := Multinomial.pmf_off pr h hp x hU hn hz
  rcases le_or_gt ((n.factorial : ℝ) / (∏ i, ((x i).factorial : ℝ)) * ∏ i, p i ^ x i) 1 with hv | hv
  · obtain ⟨q, e1, e2⟩ := h1 hv
    exact Or.inl ⟨q, _, e1, e2, mul_pos (by positivity) (Finset.prod_pos fun i _ => pow_pos (hpos i) _)⟩
  · exact Or.inr (h2 hv)

/-- C103 (what holds): for every accepted law and every point with a total below 2^64, `pmf` returns the mass exactly when the point
has total 0 while `n ≠ 0`, or its total is neither 0 nor `n` and it counts a category of probability 0. (Missing: every other
point, in particular all points of positive mass.) -/
theorem C103_multinomial_pmf_partial [FP] [FP.Exact] (pr : Profile) {n : ℕ} {ps : Fin N → F64} {d : Multinomial N}
    {p : Fin N → ℝ} (h : Multinomial.new n ps = .ok d) (hp : ∀ i, (ps i).Is (p i)) (hnU : n < U64) (x : Fin N → ℕ)
    (hU : ∑ i, x i < U64) :
    (∃ q, d.pmf pr x = .ok q ∧ q.val.Is (multinomialPMF n p x)) ↔
      (∑ i, x i = 0 ∧ n ≠ 0) ∨ (∑ i, x i ≠ 0 ∧ ∑ i, x i ≠ n ∧ ∃ i, p i = 0 ∧ x i ≠ 0) := by
  by_cases hz : ∑ i, x i = 0
  · have hx : x = fun _ => 0 := funext fun i => (Finset.sum_eq_zero_iff.1 hz) i (Finset.mem_univ i)
    have e := (C103_multinomial_zero_violated pr d).1
    rw [← hx] at e
    rw [e]
    constructor
    · rintro ⟨q, hq, hv⟩
      cases hq
      refine Or.inl ⟨hz, fun hn => ?_⟩
      subst hn
      rw [hx, (C103_multinomial_zero_violated pr d).2] at hv
      have := hv.eq (Is.zero : Probability.zero.val.Is 0)
      norm_num at this
    · rintro (⟨_, hn⟩ | ⟨h0, _⟩)
      · refine ⟨_, rfl, ?_⟩
        unfold multinomialPMF
        rw [if_neg (by omega)]; exact Is.zero
      · exact absurd hz h0
  · by_cases hn : ∑ i, x i = n
    · rw [(C103_multinomial_pmf_violated pr h x hn (by omega) hnU).1]
      constructor
      · rintro ⟨q, hq, _⟩; cases hq
      · rintro (⟨h0, _⟩ | ⟨_, h0, _⟩)
        · exact absurd h0 hz
        · exact absurd hn h0
    · constructor
      · rintro ⟨q, hq, hv⟩
        refine Or.inr ⟨hz, hn, ?_⟩
        by_contra hc
        push Not at hc
        have hr := Multinomial.range h hp
        have hvpos : 0 < (n.factorial : ℝ) / (∏ i, ((x i).factorial : ℝ)) * ∏ i, p i ^ x i := by
          refine mul_pos (by positivity) (Finset.prod_pos fun i _ => ?_)
          rcases (hr i).1.eq_or_lt with h0 | h0
          · rw [hc i h0.symm]; simp
          · exact pow_pos h0 _
        obtain ⟨h1, h2⟩ := Multinomial.pmf_off pr h hp x hU hn hz
        rcases le_or_gt ((n.factorial : ℝ) / (∏ i, ((x i).factorial : ℝ)) * ∏ i, p i ^ x i) 1 with hv' | hv'
        · obtain ⟨q', e1, e2⟩ := h1 hv'
          rw [hq] at e1; cases e1
          have := e2.eq hv
          rw [show multinomialPMF n p x = 0 from if_neg hn] at this
          linarith
        · rw [h2 hv'] at hq; cases hq
      · rintro (⟨h0, _⟩ | ⟨_, _, i, hi, hxi⟩)
        · exact absurd h0 hz
        · obtain ⟨h1, _⟩ := Multinomial.pmf_off pr h hp x hU hn hz
          have hv : (n.factorial : ℝ) / (∏ i, ((x i).factorial : ℝ)) * ∏ i, p i ^ x i = 0 := by
            rw [Finset.prod_eq_zero (f := fun i => p i ^ x i) (Finset.mem_univ i) (by rw [hi, zero_pow hxi]), mul_zero]
          rw [hv] at h1
          rw [show multinomialPMF n p x = 0 from if_neg hn]
          exact h1 zero_le_one

/-! ### support and overflow -/

/-- C183 (what holds): every point of positive mass lies in the box `support` -/
theorem C183_multinomial_support_partial (d : Multinomial N) (p : Fin N → ℝ) (x : Fin N → ℕ)
    (hx : multinomialPMF d.n p x ≠ 0) (i : Fin N) : (d.support i).1 ≤ x i ∧ x i ≤ (d.support i).2 := by
  have hs : ∑ i, x i = d.n := by
    by_contra h; exact hx (if_neg h)
  exact ⟨Nat.zero_le _, show x i ≤ d.n from hs ▸ Finset.single_le_sum (f := x) (fun _ _ => Nat.zero_le _) (Finset.mem_univ i)⟩

/-- C183 is violated: for `n ≥ 1` the box `support` contains the zero vector, and (two or more categories) the vector `(n, …, n)`,
which have no mass under any weights. -/
theorem C183_multinomial_support_violated (d : Multinomial N) (hn : 1 ≤ d.n) (p : Fin N → ℝ) :
    ((∀ i, (d.support i).1 ≤ 0 ∧ 0 ≤ (d.support i).2) ∧ multinomialPMF d.n p (fun _ => 0) = 0) ∧
    (2 ≤ N → (∀ i, (d.support i).1 ≤ d.n ∧ d.n ≤ (d.support i).2) ∧ multinomialPMF d.n p (fun _ => d.n) = 0) := by
  refine ⟨⟨fun i => ⟨le_rfl, Nat.zero_le _⟩, if_neg ?_⟩, fun hN => ⟨fun i => ⟨Nat.zero_le _, le_rfl⟩, if_neg ?_⟩⟩
  · simp; omega
  · simp only [Finset.sum_const, Finset.card_univ, Fintype.card_fin, smul_eq_mul]
    nlinarith

/-- C184 is violated: counts whose total does not fit a usize make `pmf` and `log_pmf` panic in a checked build; in a release build the
total wraps, so a vector whose total is `n` modulo 2^64 is treated as one with total `n`. -/
theorem C184_multinomial_overflow_violated [FP] (d : Multinomial N) (x : Fin N → ℕ) (hx : ∀ i, x i < U64)
    (hU : U64 ≤ ∑ i, x i) :
    d.pmf .debug x = .error .overflow ∧ d.logPmf .debug x = .error .overflow ∧
    ((∑ i, x i) % U64 = d.n → d.logPmf .release x = .error .explicit) ∧
    ((∑ i, x i) % U64 = 0 → d.pmf .release x = .ok Probability.zero) := by
  obtain ⟨_, h2, h3⟩ := usumFold_eq .debug (List.ofFn x) (fun y hy => by
    obtain ⟨i, rfl⟩ := List.mem_ofFn.1 hy; exact hx i) 0 (by unfold U64; positivity)
  rw [list_ofFn_sum, zero_add] at h2 h3
  have h2 := h2 hU
  obtain ⟨r, hr⟩ := assertEqU_self N
  refine ⟨?_, ?_, fun h => ?_, fun h => ?_⟩
  · unfold Multinomial.pmf; rw [h2]; rfl
  · unfold Multinomial.logPmf; rw [hr, h2]; rfl
  · unfold Multinomial.logPmf; rw [hr, h3]
    show (if (∑ i, x i) % U64 = d.n then _ else _) = _
    rw [if_pos h]
  · unfold Multinomial.pmf; rw [h3]
    show (if (∑ i, x i) % U64 = 0 then _ else _) = _
    rw [if_pos h]

section
attribute [local instance] exactFP exactFP_exact
/-- a concrete law meeting the hypotheses: 3 trials, weights (1/2, 1/2) -/
example : ∃ d, Multinomial.new 3 (fun _ : Fin 2 => F64.fin (1 / 2)) = .ok d ∧ ∑ _i : Fin 2, (1 / 2 : ℝ) = 1 := by
  refine ⟨⟨3, _⟩, Multinomial.new_ok.2 ⟨⟨⟨_⟩, (C05_simplex_new_iff _ _).2 ⟨rfl, ?_, ?_⟩⟩, rfl⟩, by norm_num⟩
  · intro p hp
    obtain ⟨i, rfl⟩ := List.mem_ofFn.1 hp
    exact ⟨1 / 2, Is.fin _, by norm_num, by norm_num⟩
  · have e : (F64.sum (List.ofFn fun _ : Fin 2 => F64.fin (1 / 2)) - 1).abs.Is 0 := by
      have := ((Is.zero.add (Is.fin (1 / 2))).add (Is.fin (1 / 2))).sub Is.one |>.abs
      exact Is.congr this (by norm_num)
    exact (Is.lt_iff e (Is.lit _)).2 (by norm_num)
end
end Rstat
