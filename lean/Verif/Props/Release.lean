import Verif.Props.Utils
import Verif.Props.Probability
import Verif.Props.Dist.Binomial
import Verif.Props.FloatPmf2

/-! Unsigned underflow and overflow: what `choose`, `sample_index` and the binomial law do outside the range of `u64`, in debug builds (a panic) and in
release builds (wrapping). Further theorems about C07, C28, C88 and C121. -/
set_option linter.unusedSectionVars false
namespace Rstat
open F64 Spec

/-- C07: for K = 0 a release build does not panic: the wrapped `len() - 1` makes it return the index `usize::MAX`, whatever the draw. -/
theorem C07_sample_index_empty_release [FP] {σ : Type} (g : Rng σ) (s : σ) :
    (⟨[]⟩ : SimplexVector).sampleIndex .release g s = (.ok (2 ^ 64 - 1), (g.gen s).2) := by
  simp [SimplexVector.sampleIndex, SimplexVector.indexOf, usub, SimplexVector.prefixes, SimplexVector.position, U64]

/-- an error in a monadic left fold persists -/
theorem foldlM_error {α β ε : Type} (f : β → α → Except ε β) (l : List α) {pre : List α} {b : β} {e : ε} (h : pre.foldlM f b = .error e) :
    (pre ++ l).foldlM f b = .error e := by
  rw [List.foldlM_append, h]; rfl

/-- C28: in a debug build `choose` is never silently wrong: it returns the binomial coefficient when every product of the loop fits in `u64`, and panics otherwise. -/
theorem C28_choose_debug (n k : ℕ) (hn : n < 2 ^ 64) :
    choose .debug n k = if k ≤ n ∧ ∀ i < min k (n - k), n.choose i * (n - i) < 2 ^ 64 then .ok (n.choose k) else .error .overflow := by
  by_cases hk : k ≤ n
  · by_cases hfit : ∀ i < min k (n - k), n.choose i * (n - i) < 2 ^ 64
    · rw [if_pos ⟨hk, hfit⟩]; exact C28_choose .debug n k hn hk hfit
    · rw [if_neg (fun h => hfit h.2)]
      push Not at hfit
      obtain ⟨i, hi, hbig⟩ := hfit
      -- the first product that does not fit
      let P : ℕ → Prop := fun i => 2 ^ 64 ≤ n.choose i * (n - i)
      have hex : ∃ i, P i := ⟨i, hbig⟩
      classical
      let i0 := Nat.find hex
      have h0 : P i0 := Nat.find_spec hex
      have h1 : ∀ j < i0, n.choose j * (n - j) < U64 := fun j hj => by
        have := Nat.find_min hex hj
        exact not_le.1 this
      have h2 : i0 ≤ i := Nat.find_min' hex hbig
      have hstep : (List.range (i0 + 1)).foldlM (chooseStep .debug n) 1 = .error .overflow := by
        rw [List.range_succ, foldlM_append_single, chooseLoop .debug n hn i0 (by omega) h1]
        simp only [Except.bind, chooseStep]
        rw [usub_ok (by omega)]
        simp only [Bind.bind, Except.bind, umul]
        rw [if_neg (show ¬ n.choose i0 * (n - i0) < U64 from not_lt.2 h0)]
      unfold choose
      rw [usub_ok hk]
      simp only [Bind.bind, Except.bind]
      generalize hk' : (if k > n - k then n - k else k) = k'
      have hlt : i0 + 1 ≤ k' := by rw [← hk']; split_ifs <;> omega
      obtain ⟨l, hl⟩ : ∃ l, List.range k' = List.range (i0 + 1) ++ l := ⟨(List.range (k' - (i0 + 1))).map (i0 + 1 + ·), by
        rw [← List.range_add]; congr 1; omega⟩
      rw [hl]; exact foldlM_error _ _ hstep
  · rw [if_neg (fun h => hk h.1)]; exact C28_choose_panics n k (by omega)

/-- C28: a debug build therefore never returns a wrong value -/
theorem C28_choose_debug_sound (n k c : ℕ) (hn : n < 2 ^ 64) (h : choose .debug n k = .ok c) : k ≤ n ∧ c = n.choose k := by
  rw [C28_choose_debug n k hn] at h
  split_ifs at h with hc
  exact ⟨hc.1, (Except.ok.inj h).symm⟩

/-- C28: a release build returns 0 for every `k > n`, which is the binomial coefficient, although intermediate values wrap -/
theorem C28_choose_release_above (n k : ℕ) (hk : n < k) (hk' : k < 2 ^ 64) : choose .release n k = .ok (n.choose k) := by
  have step : ∀ acc i, i + 1 < U64 → ∃ c, chooseStep .release n acc i = .ok c ∧ (acc = 0 → c = 0) ∧ (i = n → c = 0) := by
    intro acc i hi
    unfold chooseStep
    have h1 : ∃ d, usub .release n i = .ok d ∧ (i = n → d = 0) := by
      unfold usub; split_ifs with h
      · exact ⟨_, rfl, fun e => by omega⟩
      · exact ⟨_, rfl, fun e => by omega⟩
    obtain ⟨d, hd, hd0⟩ := h1
    have h2 : ∃ m, umul .release acc d = .ok m ∧ (acc = 0 ∨ d = 0 → m = 0) := by
      unfold umul; split_ifs with h
      · exact ⟨_, rfl, fun e => by rcases e with e | e <;> simp [e]⟩
      · exact ⟨_, rfl, fun e => by rcases e with e | e <;> simp [e]⟩
    obtain ⟨m, hm, hm0⟩ := h2
    rw [hd]; simp only [Bind.bind, Except.bind]
    rw [hm]; simp only
    rw [uadd_ok hi]
    exact ⟨_, rfl, fun e => by rw [hm0 (Or.inl e), Nat.zero_div], fun e => by rw [hm0 (Or.inr (hd0 e)), Nat.zero_div]⟩
  have loop : ∀ j, j < U64 → ∃ c, (List.range j).foldlM (chooseStep .release n) 1 = .ok c ∧ (n < j → c = 0) := by
    intro j
    induction j with
    | zero => intro _; exact ⟨1, rfl, by omega⟩
    | succ j ih =>
      intro hj
      obtain ⟨c, hc, hc0⟩ := ih (by omega)
      obtain ⟨c', hc', h1, h2⟩ := step c j hj
      refine ⟨c', by rw [List.range_succ, foldlM_append_single, hc]; exact hc', fun hnj => ?_⟩
      rcases Nat.lt_or_ge n j with h | h
      · exact h1 (hc0 h)
      · exact h2 (by omega)
  rw [Nat.choose_eq_zero_of_lt hk]
  have hU : U64 = 2 ^ 64 := rfl
  have hs : usub .release n k = .ok (n + U64 - k) := by unfold usub; rw [if_neg (show ¬ k ≤ n by omega)]
  have done : ∀ k', n < k' → k' < U64 → (List.range k').foldlM (chooseStep .release n) 1 = .ok 0 := fun k' b1 b2 => by
    obtain ⟨c, hc, hc0⟩ := loop k' b2
    rw [hc, hc0 b1]
  unfold choose
  rw [hs, exc_ok_bind]
  dsimp only
  apply done
  · split_ifs <;> omega
  · split_ifs <;> omega

/-- non-vacuity: `choose(5, 9)` -/
example : choose .release 5 9 = .ok 0 := C28_choose_release_above 5 9 (by norm_num) (by norm_num)

section
variable [FP] [FP.Exact] {P : Probability} {d : Binomial} {n : ℕ} {p : ℝ}

/-- C88: above `n` a release build returns the mass 0, for every `p < 1` -/
theorem C88_binomial_release_above (h : Binomial.new n P = .ok d) (hp : P.val.Is p) (h1 : p < 1) (k : ℕ) (hk : n < k) (hk' : k < 2 ^ 64) (hp0 : 0 < p) :
    ∃ r, d.pmf .release k = .ok r ∧ r.val.Is (binPMF n p k) := by
  obtain ⟨_, rfl⟩ := Binomial.new_ok.1 h
  have hq := not_is hp
  have hq1 : (1 - p) ≠ 0 := by linarith
  have pw : ∀ {Q : Probability} {q : ℝ}, Q.val.Is q → q ≠ 0 → ∀ z : ℤ, ∃ y, (Q.powi z).Is y := by
    intro Q q hQ hq0 z
    unfold Probability.powi
    rcases lt_or_ge z 0 with hz | hz
    · obtain ⟨m, rfl⟩ : ∃ m : ℕ, z = -(m : ℤ) := ⟨z.natAbs, by omega⟩
      exact ⟨_, hQ.powi_neg hq0 m (by omega)⟩
    · obtain ⟨m, rfl⟩ : ∃ m : ℕ, z = (m : ℤ) := ⟨z.natAbs, by omega⟩
      exact ⟨_, hQ.powi m⟩
  unfold Binomial.pmf
  rw [C28_choose_release_above n k hk hk', Nat.choose_eq_zero_of_lt hk]
  have hu : usub .release n k = .ok (n + U64 - k) := by unfold usub; rw [if_neg (by omega)]
  rw [hu]
  obtain ⟨y, hy⟩ := pw hp hp0.ne' (i32wrap k)
  obtain ⟨z, hz⟩ := pw hq hq1 (i32wrap ((n + U64 - k : ℕ) : ℤ))
  refine ⟨_, rfl, ?_⟩
  rw [binPMF_zero hk]
  refine Is.congr ((Is.ofNat 0).mul (hy.mul hz)) ?_
  simp

/-- C121 (violated in release builds): above `n`, where the distribution function is 1, the wrapped subtraction makes `cdf(k)` the distribution function of
a binomial law with `n + 2^64` trials, which is smaller than 1 for every `p` in (0,1]. -/
theorem C121_binomial_cdf_release_violated (h : Binomial.new n P = .ok d) (hp : P.val.Is p) (k : ℕ) (hk : n < k) (hk' : k + 1 < 2 ^ 64) (hp0 : 0 < p) :
    ∃ r, d.cdf .release k = .ok r ∧ r.val.Is (∑ j ∈ Finset.range (k + 1), binPMF (n + 2 ^ 64) p j) ∧
      ∑ j ∈ Finset.range (k + 1), binPMF (n + 2 ^ 64) p j < 1 ∧ ∑ j ∈ Finset.range (k + 1), binPMF n p j = 1 := by
  obtain ⟨hp0', hp1⟩ := Binomial.range h hp
  obtain ⟨_, rfl⟩ := Binomial.new_ok.1 h
  have hq := not_is hp
  have hU : U64 = 2 ^ 64 := rfl
  set M := n + 2 ^ 64 with hM
  have hkM : k < M := by omega
  have hkn : (k : ℝ) < M := by exact_mod_cast hkM
  have hr : (P.not.val.betainc (F64.ofNat (M - k)) (F64.ofNat (k + 1))).Is (∑ j ∈ Finset.range (k + 1), binPMF M p j) := by
    have h1 := Is.betainc hq (Is.ofNat (M - k)) (Is.ofNat (k + 1)) (by linarith) (by linarith)
      (by rw [Nat.cast_sub hkM.le]; linarith) (by positivity)
    refine h1.congr ?_
    rw [Nat.cast_sub hkM.le]; push_cast
    rw [bin_cdf_betaI M k hkM, sub_sub_cancel]
  refine ⟨_, ?_, hr, ?_, ?_⟩
  · unfold Binomial.cdf usub
    rw [if_neg (show ¬ k ≤ n by omega), uadd_ok (show k + 1 < U64 by omega)]
    rfl
  · rw [← bin_total (p := p) M]
    refine Finset.sum_lt_sum_of_subset (Finset.range_mono (by omega)) (i := M) (by simp) (by simp; omega) ?_
      fun j _ _ => bin_nonneg hp0' hp1 M j
    have : binPMF M p M = p ^ M := by unfold binPMF; simp
    rw [this]; positivity
  · rw [← bin_total (p := p) n]
    exact (Finset.sum_subset (Finset.range_mono (by omega)) fun j _ hj =>
      binPMF_zero (by simpa [Nat.lt_succ_iff] using hj)).symm
end

/-- a positive number times an infinity -/
theorem fin_mul_infinite [FP] {a x : F64} {p : ℝ} (ha : a.Is p) (hp : 0 < p) (h : x = pinf ∨ x = ninf) : a * x = pinf ∨ a * x = ninf := by
  have e := ha.eq_fin hp.ne'
  rw [e]
  rcases h with rfl | rfl
  · left; change F64.mul (fin p) pinf = pinf; simp [F64.mul, sinf, hp.ne', not_lt.2 hp.le]
  · right; change F64.mul (fin p) ninf = ninf; simp [F64.mul, sinf, hp.ne', not_lt.2 hp.le]

/-- products of zeros and ones are exact -/
theorem mul01 [FP] [FP.Lawful] {a b : F64} {x y : ℝ} (ha : a.Is x) (hb : b.Is y) (hx : x = 0 ∨ x = 1) (hy : y = 0 ∨ y = 1) :
    (a * b).Is (x * y) ∧ (x * y = 0 ∨ x * y = 1) := by
  have h := mul_fin_ext ha hb
  have hc : x * y = 0 ∨ x * y = 1 := by rcases hx with rfl | rfl <;> rcases hy with rfl | rfl <;> simp
  refine ⟨?_, hc⟩
  rcases hc with e | e <;> rw [e] at h ⊢
  · exact round_zero_is.of_ext h.symm
  · exact round_one_is.of_ext h.symm

theorem powiLoop01 [FP] [FP.Lawful] (n : ℕ) : ∀ {a r : F64} {x y : ℝ}, a.Is x → r.Is y → (x = 0 ∨ x = 1) → (y = 0 ∨ y = 1) →
    (F64.powiLoop a r n).Is (y * x ^ n) := by
  induction n using Nat.strong_induction_on with
  | _ n ih =>
    intro a r x y ha hr hx hy
    unfold F64.powiLoop
    have hstep : (if n % 2 = 1 then r * a else r).Is (if n % 2 = 1 then y * x else y) ∧
        ((if n % 2 = 1 then y * x else y) = 0 ∨ (if n % 2 = 1 then y * x else y) = 1) := by
      split_ifs
      · exact mul01 hr ha hy hx
      · exact ⟨hr, hy⟩
    have ha2 := mul01 ha ha hx hx
    split_ifs with h0 h1 h1
    · have : n = 1 := by omega
      subst this; simpa using (mul01 hr ha hy hx).1
    · have : n = 0 := by omega
      subst this; simpa using hr
    · rw [if_pos h1, if_pos h1] at hstep
      refine (ih (n / 2) (by omega) ha2.1 hstep.1 ha2.2 hstep.2).congr ?_
      have hn : n = 2 * (n / 2) + 1 := by omega
      conv_rhs => rw [hn, pow_succ, pow_mul]
      rw [sq]; ring
    · rw [if_neg h1, if_neg h1] at hstep
      refine (ih (n / 2) (by omega) ha2.1 hstep.1 ha2.2 hstep.2).congr ?_
      have hn : n = 2 * (n / 2) := by omega
      conv_rhs => rw [hn, pow_mul]
      rw [sq]

/-- C88 (violated in release builds): with `p = 1` and `n < k < 2^31` the mass is 0 but `pmf(k)` is NaN, in every lawful floating-point implementation:
the exponent of `q = 0` wraps to a negative number, and `0 · ∞` is NaN. -/
theorem C88_binomial_release_nan_violated [FP] [FP.Lawful] {n k : ℕ} (hk : n < k) (hk' : k < 2 ^ 31) {d : Binomial}
    (h : Binomial.new n ⟨1⟩ = .ok d) : ∃ r, d.pmf .release k = .ok r ∧ r.val = nan ∧ binPMF n 1 k = 0 := by
  obtain ⟨_, rfl⟩ := Binomial.new_ok.1 h
  have hU : U64 = 2 ^ 64 := rfl
  have hu : usub .release n k = .ok (n + U64 - k) := by unfold usub; rw [if_neg (by omega)]
  have hw : i32wrap ((n + U64 - k : ℕ) : ℤ) = -((k - n : ℕ) : ℤ) := by unfold i32wrap; omega
  have hz : (Probability.not ⟨1⟩).val.Is 0 := by
    have := add_ext Is.one Is.one.neg
    rw [add_neg_cancel] at this
    exact round_zero_is.of_ext this.symm
  have h1 : ((⟨1⟩ : Probability).powi (i32wrap k)).Is 1 := by
    rw [i32wrap_small (by omega) (by omega)]
    unfold Probability.powi F64.powi
    rw [if_neg (by omega), Int.natAbs_natCast]
    simpa using powiLoop01 k Is.one (Is.fin 1) (Or.inr rfl) (Or.inr rfl)
  have h2 : (Probability.not ⟨1⟩).powi (i32wrap ((n + U64 - k : ℕ) : ℤ)) = pinf ∨ (Probability.not ⟨1⟩).powi (i32wrap ((n + U64 - k : ℕ) : ℤ)) = ninf := by
    rw [hw]
    unfold Probability.powi F64.powi
    rw [if_pos (by omega), Int.natAbs_neg, Int.natAbs_natCast]
    have := powiLoop01 (k - n) hz (Is.fin 1) (Or.inl rfl) (Or.inr rfl)
    rw [zero_pow (by omega), mul_zero] at this
    rcases this with h | ⟨h, -⟩
    · left; rw [h]; change F64.div (fin 1) (fin 0) = pinf; simp [F64.div, sinf]
    · right; rw [h]; change F64.div (fin 1) negZero = ninf; simp [F64.div, sinf]
  have h3 : (F64.ofNat 0).Is 0 := by
    show (F64.round ((0 : ℕ) : ℝ)).Is 0
    rw [Nat.cast_zero]; exact round_zero_is
  unfold Binomial.pmf
  rw [C28_choose_release_above n k hk (by omega), Nat.choose_eq_zero_of_lt hk, hu]
  refine ⟨_, rfl, ?_, binPMF_zero hk⟩
  · show F64.ofNat 0 * ((⟨1⟩ : Probability).powi (i32wrap k) * (Probability.not ⟨1⟩).powi (i32wrap ((n + U64 - k : ℕ) : ℤ))) = nan
    rcases fin_mul_infinite h1 one_pos h2 with e | e
    · rw [e]
      rcases h3 with h3 | ⟨h3, -⟩ <;> rw [h3]
      · change F64.mul (fin 0) pinf = nan; simp [F64.mul]
      · change F64.mul negZero pinf = nan; simp [F64.mul]
    · rw [e]
      rcases h3 with h3 | ⟨h3, -⟩ <;> rw [h3]
      · change F64.mul (fin 0) ninf = nan; simp [F64.mul]
      · change F64.mul negZero ninf = nan; simp [F64.mul]

/-- non-vacuity: a binomial law with p = 1 can be built -/
example [FP] [FP.Lawful] : ∃ d, Binomial.new 3 ⟨1⟩ = .ok d ∧ ∃ r, d.pmf .release 4 = .ok r ∧ r.val = nan := by
  have h : Binomial.new 3 ⟨1⟩ = .ok ⟨3, ⟨1⟩, Probability.not ⟨1⟩⟩ :=
    Binomial.new_ok.2 ⟨⟨(Is.zero.le_iff Is.one).2 zero_le_one, (Is.one.le_iff Is.one).2 le_rfl⟩, rfl⟩
  obtain ⟨r, h1, h2, -⟩ := C88_binomial_release_nan_violated (n := 3) (k := 4) (by norm_num) (by norm_num) h
  exact ⟨_, h, r, h1, h2⟩
end Rstat
