import Verif.Model.Traits
import Verif.Lemmas.Constraints
import Verif.Lemmas.Probability
namespace Rstat
namespace MethodPair
variable {X A B : Type} (m : MethodPair X A B)

theorem callA_over {f : X → A} (h : m.a? = some f) (n : ℕ) (x : X) : m.callA (n + 1) x = some (f x) := by
  simp [callA, h]
theorem callB_over {f : X → B} (h : m.b? = some f) (n : ℕ) (x : X) : m.callB (n + 1) x = some (f x) := by
  simp [callB, h]
theorem callA_dflt {g : X → B} (h : m.a? = none) (h' : m.b? = some g) (n : ℕ) (x : X) :
    m.callA (n + 2) x = some (m.ofB (g (m.argA x))) := by
  simp [callA, callB, h, h']
theorem callB_dflt {f : X → A} (h : m.b? = none) (h' : m.a? = some f) (n : ℕ) (x : X) :
    m.callB (n + 2) x = some (m.ofA (f (m.argB x))) := by
  simp [callA, callB, h, h']
theorem call_none (h : m.a? = none) (h' : m.b? = none) (n : ℕ) :
    ∀ x, m.callA n x = none ∧ m.callB n x = none := by
  induction n with
  | zero => intro x; simp [callA, callB]
  | succ n ih => intro x; simp [callA, callB, h, h', (ih _).1, (ih _).2]

/-- more stack never changes an answer -/
theorem call_mono (n : ℕ) : ∀ x, (∀ y, m.callA n x = some y → m.callA (n + 1) x = some y) ∧
    (∀ y, m.callB n x = some y → m.callB (n + 1) x = some y) := by
  induction n with
  | zero => intro x; simp [callA, callB]
  | succ n ih =>
    intro x
    constructor
    · intro y hy
      rw [callA] at hy ⊢
      cases h : m.a? with
      | some f => simpa [h] using hy
      | none =>
        simp only [h] at hy ⊢
        cases hb : m.callB n (m.argA x) with
        | none => simp [hb] at hy
        | some b => rw [(ih _).2 b hb]; simpa [hb] using hy
    · intro y hy
      rw [callB] at hy ⊢
      cases h : m.b? with
      | some f => simpa [h] using hy
      | none =>
        simp only [h] at hy ⊢
        cases hb : m.callA n (m.argB x) with
        | none => simp [hb] at hy
        | some b => rw [(ih _).1 b hb]; simpa [hb] using hy

theorem callA_mono_le {n k : ℕ} (h : n ≤ k) (x : X) (y : A) (hy : m.callA n x = some y) : m.callA k x = some y := by
  induction h with
  | refl => exact hy
  | step _ ih => exact (m.call_mono _ x).1 y ih
theorem callB_mono_le {n k : ℕ} (h : n ≤ k) (x : X) (y : B) (hy : m.callB n x = some y) : m.callB k x = some y := by
  induction h with
  | refl => exact hy
  | step _ ih => exact (m.call_mono _ x).2 y ih

theorem RetA.unique {m : MethodPair X A B} {x : X} {y z : A} (h : m.RetA x y) (h' : m.RetA x z) : y = z := by
  obtain ⟨n, hn⟩ := h; obtain ⟨k, hk⟩ := h'
  have h1 := m.callA_mono_le (le_max_left n k) x y hn
  have h2 := m.callA_mono_le (le_max_right n k) x z hk
  rw [h1] at h2; exact Option.some.inj h2
theorem RetB.unique {m : MethodPair X A B} {x : X} {y z : B} (h : m.RetB x y) (h' : m.RetB x z) : y = z := by
  obtain ⟨n, hn⟩ := h; obtain ⟨k, hk⟩ := h'
  have h1 := m.callB_mono_le (le_max_left n k) x y hn
  have h2 := m.callB_mono_le (le_max_right n k) x z hk
  rw [h1] at h2; exact Option.some.inj h2

theorem retA_iff_over {f : X → A} (h : m.a? = some f) (x : X) (y : A) : m.RetA x y ↔ y = f x :=
  ⟨fun hy => hy.unique ⟨1, m.callA_over h 0 x⟩, fun hy => hy ▸ ⟨1, m.callA_over h 0 x⟩⟩
theorem retB_iff_over {f : X → B} (h : m.b? = some f) (x : X) (y : B) : m.RetB x y ↔ y = f x :=
  ⟨fun hy => hy.unique ⟨1, m.callB_over h 0 x⟩, fun hy => hy ▸ ⟨1, m.callB_over h 0 x⟩⟩
theorem retA_iff_dflt {g : X → B} (h : m.a? = none) (h' : m.b? = some g) (x : X) (y : A) :
    m.RetA x y ↔ y = m.ofB (g (m.argA x)) :=
  ⟨fun hy => hy.unique ⟨2, m.callA_dflt h h' 0 x⟩, fun hy => hy ▸ ⟨2, m.callA_dflt h h' 0 x⟩⟩
theorem retB_iff_dflt {f : X → A} (h : m.b? = none) (h' : m.a? = some f) (x : X) (y : B) :
    m.RetB x y ↔ y = m.ofA (f (m.argB x)) :=
  ⟨fun hy => hy.unique ⟨2, m.callB_dflt h h' 0 x⟩, fun hy => hy ▸ ⟨2, m.callB_dflt h h' 0 x⟩⟩
theorem not_ret (h : m.a? = none) (h' : m.b? = none) (x : X) : (∀ y, ¬ m.RetA x y) ∧ (∀ y, ¬ m.RetB x y) := by
  refine ⟨fun y ⟨n, hn⟩ => ?_, fun y ⟨n, hn⟩ => ?_⟩
  · rw [(m.call_none h h' n x).1] at hn; cases hn
  · rw [(m.call_none h h' n x).2] at hn; cases hn

end MethodPair

namespace F64
variable [FP]
/-- representable finite value -/
def Rep (a : F64) (r : ℝ) : Prop := a.Is r ∧ FP.rnd r = r ∧ ¬ FP.huge r

theorem round_le_of_le [FP.Lawful] {r s : ℝ} (h : r ≤ s) (hs : FP.rnd s = s) (hh : ¬ FP.huge s) :
    F64.round r ≤ fin s := by
  have hm : FP.rnd r ≤ s := by have := FP.Lawful.rnd_mono h; rwa [hs] at this
  unfold F64.round
  split
  · rename_i h1
    split
    · rename_i h2
      exfalso; apply hh
      apply FP.Lawful.huge_mono _ _ _ h1
      rw [abs_of_nonneg (rnd_nonneg h2.le), abs_of_nonneg (h2.le.trans h)]; exact hm
    · simp [le_def]
  · split
    · rename_i h2; exact Is.negZero.le_iff (Is.fin s) |>.2 (h2.1 ▸ hm)
    · exact fin_le_fin.2 hm

theorem le_round_of_le [FP.Lawful] {r s : ℝ} (h : s ≤ r) (hs : FP.rnd s = s) (hh : ¬ FP.huge s) :
    fin s ≤ F64.round r := by
  have hm : s ≤ FP.rnd r := by have := FP.Lawful.rnd_mono h; rwa [hs] at this
  unfold F64.round
  split
  · rename_i h1
    split
    · simp [le_def]
    · rename_i h2
      exfalso; apply hh
      apply FP.Lawful.huge_mono _ _ _ h1
      have h3 : r ≤ 0 := not_lt.1 h2
      have h4 : FP.rnd r ≤ 0 := by have := FP.Lawful.rnd_mono h3; rwa [rnd_zero] at this
      rw [abs_of_nonpos h4, abs_of_nonpos (h.trans h3)]; linarith
  · split
    · rename_i h2; exact (Is.fin s).le_iff Is.negZero |>.2 (h2.1 ▸ hm)
    · exact fin_le_fin.2 hm

theorem not_huge_zero [FP.Lawful] : ¬ FP.huge (0 : ℝ) := FP.Lawful.not_huge 0 (by simp)

/-- non-negative: a non-negative finite value or +inf -/
theorem nonneg_cases {y : F64} (h : (0 : F64) ≤ y) : y = pinf ∨ ∃ r, y.Is r ∧ 0 ≤ r := by
  obtain ⟨a, b, ha, hb, hab⟩ := h
  have ha' : a = 0 := by
    have : some a = some (0 : EReal) := ha.symm.trans rfl
    exact Option.some.inj this
  subst ha'
  cases y with
  | nan => simp at hb
  | pinf => exact Or.inl rfl
  | ninf => simp at hb; subst hb; simp at hab
  | negZero => exact Or.inr ⟨0, Is.negZero, le_rfl⟩
  | fin r =>
    simp at hb; subst hb
    exact Or.inr ⟨r, Is.fin r, by exact_mod_cast hab⟩

theorem sub_nonneg_of_le [FP.Lawful] {a b : F64} {r s : ℝ} (ha : a.Is r) (hb : b.Is s) (h : s ≤ r) :
    (0 : F64) ≤ a - b := by
  change (0 : F64) ≤ a + (-b)
  rcases add_eq_round ha hb.neg with he | ⟨_, _, he⟩
  · rw [he]; exact le_round_of_le (by linarith) rnd_zero not_huge_zero
  · rw [he]; exact Is.zero.le_iff Is.negZero |>.2 le_rfl

theorem mul_nonneg_of [FP.Lawful] {c : ℝ} (hc : 0 < c) {y : F64} (hy : (0 : F64) ≤ y) : (0 : F64) ≤ fin c * y := by
  rcases nonneg_cases hy with rfl | ⟨r, hr, hr0⟩
  · have : fin c * pinf = pinf := by
      change F64.mul (fin c) pinf = pinf
      simp [F64.mul, hc.ne', sinf, hc.le]
    rw [this, le_def]; exact ⟨0, ⊤, rfl, rfl, le_top⟩
  · rw [mul_finite (Is.fin c) hr]
    split
    · exact Is.zero.le_iff (szero_is _) |>.2 le_rfl
    · exact le_round_of_le (mul_nonneg hc.le hr0) rnd_zero not_huge_zero

theorem sub_le_self_of [FP.Lawful] {a y : F64} {r : ℝ} (ha : a.Rep r) (hy : (0 : F64) ≤ y) : a - y ≤ a := by
  obtain ⟨hi, hr, hh⟩ := ha
  have key : ∀ b : F64, b ≤ fin r → b ≤ a := by
    rintro b ⟨u, v, h1, h2, h3⟩
    exact ⟨u, v, h1, by rw [hi.ext_eq]; exact h2, h3⟩
  rcases nonneg_cases hy with rfl | ⟨s, hs, hs0⟩
  · have : a - pinf = ninf := by
      change a + (-pinf) = ninf
      rcases hi with rfl | ⟨rfl, rfl⟩ <;> rfl
    rw [this, le_def, hi.ext_eq]; exact ⟨⊥, r, rfl, rfl, bot_le⟩
  · change a + (-y) ≤ a
    apply key
    rcases add_eq_round hi hs.neg with he | ⟨h1, _, he⟩
    · rw [he]; exact round_le_of_le (by linarith) hr hh
    · rw [he]; rw [h1] at hi
      have := hi.eq Is.negZero; subst this
      exact Is.negZero.le_iff (Is.fin 0) |>.2 le_rfl

theorem le_add_self_of [FP.Lawful] {a y : F64} {r : ℝ} (ha : a.Rep r) (hy : (0 : F64) ≤ y) : a ≤ a + y := by
  obtain ⟨hi, hr, hh⟩ := ha
  have key : ∀ b : F64, fin r ≤ b → a ≤ b := by
    rintro b ⟨u, v, h1, h2, h3⟩
    exact ⟨u, v, by rw [hi.ext_eq]; exact h1, h2, h3⟩
  rcases nonneg_cases hy with rfl | ⟨s, hs, hs0⟩
  · have : a + pinf = pinf := by
      rcases hi with rfl | ⟨rfl, rfl⟩ <;> rfl
    rw [this, le_def, hi.ext_eq]; exact ⟨r, ⊤, rfl, rfl, le_top⟩
  · apply key
    rcases add_eq_round hi hs with he | ⟨h1, _, he⟩
    · rw [he]; exact le_round_of_le (by linarith) hr hh
    · rw [he]; rw [h1] at hi
      have := hi.eq Is.negZero; subst this
      exact (Is.fin 0).le_iff Is.negZero |>.2 le_rfl

end F64
end Rstat
