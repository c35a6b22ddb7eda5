import Verif.Lemmas.Utils
import Verif.Float.ExactInst
import Mathlib.Data.Nat.Choose.Central
import Mathlib.Tactic.IntervalCases

/-! Properties C28–C31: `choose`, `factorial`, `log_factorial_stirling`, array (de)serialisation. -/
namespace Rstat

/-! ### C28 -/

theorem choose_eq_core (pr : Profile) (n k : ℕ) (hn : n < U64) (hk : k ≤ n)
    (hfit : ∀ i < min k (n - k), n.choose i * (n - i) < U64) : choose pr n k = .ok (n.choose k) := by
  unfold choose
  rw [usub_ok hk]
  simp only [Bind.bind, Except.bind]
  split_ifs with h
  · rw [chooseLoop pr n hn (n - k) (by omega) (fun i hi => hfit i (by omega)), Nat.choose_symm hk]
  · exact chooseLoop pr n hn k hk (fun i hi => hfit i (by omega))

/-- C28: whenever every intermediate product C(n,i)(n-i) of the loop fits in u64, `choose n k` is the binomial
coefficient, in debug and in release builds -/
theorem C28_choose (pr : Profile) (n k : ℕ) (hn : n < 2 ^ 64) (hk : k ≤ n)
    (hfit : ∀ i < min k (n - k), n.choose i * (n - i) < 2 ^ 64) : choose pr n k = .ok (n.choose k) :=
  choose_eq_core pr n k hn hk hfit

theorem choose_fit_62 (n : ℕ) (h : n ≤ 62) (i : ℕ) : n.choose i * (n - i) < 2 ^ 64 := by
  rcases n with _ | m
  · simp
  · have h1 : (m + 1).choose i * (m + 1 - i) = (m + 1) * m.choose i := by
      rw [← Nat.choose_succ_right_eq, Nat.add_one_mul_choose_eq]
    rw [h1]
    have h2 : m.choose i ≤ m.choose (m / 2) := Nat.choose_le_middle i m
    have h3 : m.choose (m / 2) ≤ Nat.choose 61 (m / 2) := Nat.choose_le_choose _ (by omega)
    have h4 : Nat.choose 61 (m / 2) ≤ Nat.choose 61 (61 / 2) := Nat.choose_le_middle _ 61
    have h5 : Nat.choose 61 (61 / 2) = 232714176627630544 := by decide +kernel
    calc (m + 1) * m.choose i ≤ 62 * 232714176627630544 :=
          Nat.mul_le_mul (by omega) (by omega)
      _ < 2 ^ 64 := by norm_num

/-- C28: for all n ≤ 62 and k ≤ n no condition is needed -/
theorem C28_choose_62 (pr : Profile) (n k : ℕ) (h : n ≤ 62) (hk : k ≤ n) : choose pr n k = .ok (n.choose k) :=
  C28_choose pr n k (by omega) hk (fun i _ => choose_fit_62 n h i)

/-- C28: symmetric in `k` and `n-k`, whatever overflows happen -/
theorem C28_choose_symm (pr : Profile) (n k : ℕ) (hk : k ≤ n) : choose pr n k = choose pr n (n - k) := by
  unfold choose
  rw [usub_ok hk, usub_ok (Nat.sub_le n k), Nat.sub_sub_self hk]
  simp only [Bind.bind, Except.bind]
  congr 2
  split_ifs <;> omega

/-- C28: debug builds panic on every `k > n` -/
theorem C28_choose_panics (n k : ℕ) (hk : n < k) : choose .debug n k = .error .overflow := by
  unfold choose usub
  rw [if_neg (by omega)]; rfl

example : choose .debug 62 31 = .ok (Nat.choose 62 31) := C28_choose_62 _ _ _ (by norm_num) (by norm_num)
example : choose .release 1000000 3 = .ok (Nat.choose 1000000 3) := by
  refine C28_choose _ _ _ (by norm_num) (by norm_num) fun i hi => ?_
  have : i < 3 := lt_of_lt_of_le hi (min_le_left _ _)
  interval_cases i
  · norm_num
  · norm_num [Nat.choose_one_right]
  · norm_num [Nat.choose_two_right]

/-! ### C29 -/

/-- C29: `factorial n = n!` for all n ≤ 20, in both branches and both profiles -/
theorem C29_factorial (pr : Profile) (n : ℕ) (h : n ≤ 20) : factorial pr n = .ok n.factorial := by
  unfold factorial
  split_ifs with hn
  · refine factorialExact_ok pr n (lt_of_le_of_lt (Nat.factorial_le h) ?_)
    norm_num [U64, Nat.factorial]
  · have : n ≤ 11 := by omega
    interval_cases n <;> simp [FACTORIALS_16, Nat.factorial]

/-- C29: for n ≥ 21 a debug build panics with overflow -/
theorem C29_factorial_overflow (n : ℕ) (h : 21 ≤ n) : factorial .debug n = .error .overflow := by
  unfold factorial
  rw [if_pos (by omega)]
  refine factorialExact_debug_overflow n (le_trans ?_ (Nat.factorial_le h))
  norm_num [U64, Nat.factorial]

/-- C29: and a release build returns n! modulo 2^64, so it is never n! -/
theorem C29_factorial_wraps (n : ℕ) (h : 21 ≤ n) :
    factorial .release n = .ok (n.factorial % 2 ^ 64) ∧ n.factorial % 2 ^ 64 ≠ n.factorial := by
  constructor
  · unfold factorial
    rw [if_pos (by omega)]
    exact factorialExact_release n
  · have h1 : (2 : ℕ) ^ 64 ≤ n.factorial := le_trans (by norm_num [Nat.factorial]) (Nat.factorial_le h)
    have h2 : n.factorial % 2 ^ 64 < 2 ^ 64 := Nat.mod_lt _ (by norm_num)
    omega

example : factorial .debug 20 = .ok 2432902008176640000 := by
  rw [C29_factorial _ _ le_rfl]; norm_num [Nat.factorial]

/-! ### C30 -/

/-- C30: the Stirling branch, evaluated in exact arithmetic, exceeds `ln n!` by at most `1/(144 (n+1)²)` (hence < 1e-6),
for every n above the table that is not `u64::MAX` -/
theorem C30_stirling [FP] [FP.Exact] (pr : Profile) (n : ℕ) (h : 254 < n) (hn : n < 2 ^ 64 - 1) :
    ∃ (a : F64) (v : ℝ), logFactorialStirling pr n = .ok a ∧ a.Is v ∧
      0 ≤ v - Real.log n.factorial ∧ v - Real.log n.factorial ≤ 1 / (144 * ((n : ℝ) + 1) ^ 2) ∧
      |v - Real.log n.factorial| < 1 / 10 ^ 6 := by
  have he := stirling_error n
  have hb : 1 / (144 * ((n : ℝ) + 1) ^ 2) < 1 / 10 ^ 6 := by
    apply one_div_lt_one_div_of_lt (by positivity)
    have : (255 : ℝ) ≤ n := by exact_mod_cast h
    nlinarith
  refine ⟨((F64.ofNat (n + 1)) - F64.fin (1 / 2)) * (F64.ofNat (n + 1)).ln - F64.ofNat (n + 1) +
        F64.fin (1 / 2) * (2 * F64.lit Real.pi).ln + 1 / (12 * F64.ofNat (n + 1)), stirlingFormula (n + 1), ?_, ?_, he.1, he.2, ?_⟩
  rotate_left
  · have hx : (0 : ℝ) < ((n + 1 : ℕ) : ℝ) := by positivity
    have hpi := Real.pi_pos
    have : (((F64.ofNat (n + 1)) - F64.fin (1 / 2)) * (F64.ofNat (n + 1)).ln - F64.ofNat (n + 1) +
        F64.fin (1 / 2) * (2 * F64.lit Real.pi).ln + 1 / (12 * F64.ofNat (n + 1))).Is
        ((((n + 1 : ℕ) : ℝ) - 1 / 2) * Real.log ((n + 1 : ℕ) : ℝ) - ((n + 1 : ℕ) : ℝ) +
          1 / 2 * Real.log (2 * Real.pi) + 1 / (12 * ((n + 1 : ℕ) : ℝ))) := by feval
    refine this.congr ?_
    unfold stirlingFormula; push_cast; rfl
  · rw [abs_of_nonneg he.1]; linarith [he.2]
  · unfold logFactorialStirling
    rw [if_pos h, uadd_ok (by unfold U64; omega)]

/-- C30: the table branch is within 1e-12 of `ln n!` (exact arithmetic: the literal itself) -/
theorem C30_table [FP] [FP.Exact] (pr : Profile) (n : ℕ) (h : n ≤ 254) :
    ∃ (a : F64) (v : ℝ), logFactorialStirling pr n = .ok a ∧ a.Is v ∧ |v - Real.log n.factorial| ≤ 1 / 10 ^ 12 := by
  have hlen : LOG_FACTORIALS_255.length = 255 := by decide +kernel
  obtain ⟨m, hm⟩ : ∃ m, LOG_FACTORIALS_255[n]? = some m := by
    rw [List.getElem?_eq_getElem (by omega)]; exact ⟨_, rfl⟩
  refine ⟨_, (m : ℝ) / 10 ^ 15, ?_, F64.Is.lit _, table_bound n m hm⟩
  unfold logFactorialStirling
  rw [if_neg (by omega), hm]

/-- C30: at `u64::MAX` the `n + 1` overflows: a debug build panics -/
theorem C30_max_overflow [FP] : logFactorialStirling .debug (2 ^ 64 - 1) = .error .overflow := by
  unfold logFactorialStirling uadd
  simp [U64]

section
attribute [local instance] exactFP exactFP_exact
example : ∃ (a : F64) (v : ℝ), logFactorialStirling .debug 1000 = .ok a ∧ a.Is v ∧
    |v - Real.log (Nat.factorial 1000)| < 1 / 10 ^ 6 := by
  obtain ⟨a, v, h1, h3, _, _, h2⟩ := C30_stirling .debug 1000 (by norm_num) (by norm_num)
  exact ⟨a, v, h1, h3, h2⟩
end

/-! ### C31 -/

theorem visitLoop_ok {ε α : Type} (N k : ℕ) (vs : List α) (rest : SeqData ε α) (acc : List α) (h : vs.length = k) :
    visitLoop N k (vs.map .ok ++ rest) acc = .ok (acc ++ vs) := by
  induction vs generalizing k acc with
  | nil => subst h; simp [visitLoop]
  | cons v vs ih =>
    subst h
    simp only [List.length_cons, List.map_cons, List.cons_append, visitLoop]
    rw [ih _ _ rfl]; simp

theorem visitLoop_len {ε α : Type} (N k : ℕ) (seq : SeqData ε α) (acc r : List α) (h : visitLoop N k seq acc = .ok r) :
    r.length = acc.length + k ∧ ∃ vs rest, seq = vs.map .ok ++ rest ∧ r = acc ++ vs := by
  induction k generalizing seq acc with
  | zero => simp only [visitLoop, Except.ok.injEq] at h; subst h; exact ⟨rfl, [], seq, by simp⟩
  | succ k ih =>
    cases seq with
    | nil => simp [visitLoop] at h
    | cons a seq =>
      cases a with
      | error e => simp [visitLoop] at h
      | ok v =>
        simp only [visitLoop] at h
        obtain ⟨h1, vs, rest, h2, h3⟩ := ih _ _ h
        refine ⟨by rw [h1]; simp; omega, v :: vs, rest, by simp [h2], by simp [h3]⟩

/-- C31: deserialising what was serialised gives back the array (any further data in the stream is left alone) -/
theorem C31_roundtrip {ε α : Type} {n : ℕ} (data : Fin n → α) (rest : SeqData ε α) :
    deserializeArray n ((serializeArray (ε := ε) data).2 ++ rest) = .ok (.ok data) := by
  have e : (serializeArray (ε := ε) data).2 = (List.ofFn data).map .ok := by
    simp [serializeArray, List.ofFn_eq_map, Function.comp_def]
  unfold deserializeArray
  rw [e, visitLoop_ok n n (List.ofFn data) rest [] (by simp)]
  simp

/-- C31: the announced tuple length is N and exactly N elements are written -/
theorem C31_length {ε α : Type} {n : ℕ} (data : Fin n → α) :
    (serializeArray (ε := ε) data).1 = n ∧ (serializeArray (ε := ε) data).2.length = n := by
  simp [serializeArray]

/-- C31: a sequence of fewer than N good elements is an `invalid_length` error -/
theorem C31_short {ε α : Type} (n : ℕ) (vs : List α) (h : vs.length < n) :
    deserializeArray (ε := ε) n (vs.map .ok) = .ok (.error (.invalidLength n)) := by
  have key : ∀ (vs : List α) (k : ℕ) (acc : List α), vs.length < k →
      visitLoop (ε := ε) n k (vs.map .ok) acc = .error (.invalidLength n) := by
    intro vs
    induction vs with
    | nil => intro k acc hk; cases k with
      | zero => simp at hk
      | succ k => rfl
    | cons v vs ih =>
      intro k acc hk
      cases k with
      | zero => simp at hk
      | succ k => simp only [List.map_cons, visitLoop]; exact ih k _ (by simpa using hk)
  unfold deserializeArray
  rw [key vs n [] h]

/-- C31: an element that fails to parse within the first N makes the whole call fail with that error -/
theorem C31_element_error {ε α : Type} (n : ℕ) (vs : List α) (e : ε) (rest : SeqData ε α) (h : vs.length < n) :
    deserializeArray n (vs.map .ok ++ .error e :: rest) = .ok (.error (.elem e)) := by
  have key : ∀ (vs : List α) (k : ℕ) (acc : List α), vs.length < k →
      visitLoop n k (vs.map .ok ++ .error e :: rest) acc = .error (.elem e) := by
    intro vs
    induction vs with
    | nil => intro k acc hk; cases k with
      | zero => simp at hk
      | succ k => rfl
    | cons v vs ih =>
      intro k acc hk
      cases k with
      | zero => simp at hk
      | succ k => simp only [List.map_cons, List.cons_append, visitLoop]; exact ih k _ (by simpa using hk)
  unfold deserializeArray
  rw [key vs n [] h]

/-- C31: the `try_into().unwrap()` never panics, and any returned array consists of the first N elements read -/
theorem C31_never_incomplete {ε α : Type} (n : ℕ) (seq : SeqData ε α) :
    (∃ e, deserializeArray n seq = .ok (.error e)) ∨
    (∃ a : Fin n → α, deserializeArray n seq = .ok (.ok a) ∧ ∃ rest, seq = (List.ofFn a).map .ok ++ rest) := by
  unfold deserializeArray
  cases h : visitLoop n n seq [] with
  | error e => exact Or.inl ⟨e, rfl⟩
  | ok data =>
    obtain ⟨h1, vs, rest, h2, h3⟩ := visitLoop_len n n seq [] data h
    simp only [List.nil_append, List.length_nil, Nat.zero_add] at h1 h3
    subst h3
    right
    simp only [dif_pos h1]
    refine ⟨_, rfl, rest, ?_⟩
    rw [h2]
    congr 2
    apply List.ext_getElem
    · simp [h1]
    · intro i _ _; simp

example : deserializeArray (ε := Unit) 3 [.ok 5, .ok 6, .ok 7] = .ok (.ok ![5, 6, 7]) := by
  have := C31_roundtrip (ε := Unit) ![5, 6, 7] []
  simpa [serializeArray, List.finRange_succ] using this

end Rstat
