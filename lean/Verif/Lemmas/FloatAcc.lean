import Verif.Lemmas.FloatSign

/-! Forward error analysis of products of numbers in `[0, 1]`, and of the repeated squaring of `powi`. -/
set_option linter.unusedSectionVars false
namespace Rstat
open F64

/-- `x` and `y` agree after `i` roundings: up to the relative factor `(1 + 2^-52)^i` and `3 i` half-spacings of the subnormals -/
def Near (i : ℕ) (x y : ℝ) : Prop :=
  x ≤ (1 + 1 / 2 ^ 52) ^ i * (y + 3 * i * (1 / 2 ^ 1075)) ∧ y ≤ (1 + 1 / 2 ^ 52) ^ i * (x + 3 * i * (1 / 2 ^ 1075))

theorem near_step {g h G x y X Y z a b : ℝ} (hg : 1 ≤ g) (hG : 1 ≤ G) (hh : 0 ≤ h) (ha : 0 ≤ a) (hb : 0 ≤ b)
    (hab : a * b ≤ h) (hx0 : 0 ≤ x) (hx1 : x ≤ 1) (hy1 : y ≤ 1) (hX0 : 0 ≤ X) (hY0 : 0 ≤ Y)
    {G1 G2 : ℝ} (hG1 : 0 ≤ G1) (hG2 : 0 ≤ G2) (hGG : G = G1 * G2)
    (h1 : X ≤ G1 * (x + a)) (h2 : Y ≤ G2 * (y + b)) (hz : z ≤ g * (X * Y + h)) :
    z ≤ G * g * (x * y + (a + b + 3 * h)) := by
  have hy0 : 0 ≤ G2 * (y + b) := hY0.trans h2
  have e1 : X * Y ≤ (G1 * (x + a)) * (G2 * (y + b)) := mul_le_mul h1 h2 hY0 (hX0.trans h1)
  have e2 : (G1 * (x + a)) * (G2 * (y + b)) = G * ((x + a) * (y + b)) := by rw [hGG]; ring
  have e3 : (x + a) * (y + b) ≤ x * y + (a + b + h) := by nlinarith
  have e4 : X * Y + h ≤ G * (x * y + (a + b + 3 * h)) := by
    rw [e2] at e1
    have := mul_le_mul_of_nonneg_left e3 (by linarith : 0 ≤ G)
    nlinarith
  calc z ≤ g * (X * Y + h) := hz
    _ ≤ g * (G * (x * y + (a + b + 3 * h))) := mul_le_mul_of_nonneg_left e4 (by linarith)
    _ = _ := by ring

theorem near_step' {g h G x y X Y z a b : ℝ} (hg : 1 ≤ g) (hG : 1 ≤ G) (hh : 0 ≤ h) (ha : 0 ≤ a) (hb : 0 ≤ b)
    (hab : a * b ≤ h) (hx0 : 0 ≤ x) (hy0 : 0 ≤ y) (hX0 : 0 ≤ X) (hX1 : X ≤ 1) (hY1 : Y ≤ 1) (hz0 : 0 ≤ z)
    {G1 G2 : ℝ} (hG1 : 0 ≤ G1) (hG2 : 0 ≤ G2) (hGG : G = G1 * G2)
    (h1 : x ≤ G1 * (X + a)) (h2 : y ≤ G2 * (Y + b)) (hz : X * Y ≤ g * (z + h)) :
    x * y ≤ G * g * (z + (a + b + 3 * h)) := by
  have e1 : x * y ≤ (G1 * (X + a)) * (G2 * (Y + b)) := mul_le_mul h1 h2 hy0 (hx0.trans h1)
  have e2 : (G1 * (X + a)) * (G2 * (Y + b)) = G * ((X + a) * (Y + b)) := by rw [hGG]; ring
  have e3 : (X + a) * (Y + b) ≤ X * Y + (a + b + h) := by nlinarith
  have e4 : (X + a) * (Y + b) ≤ g * (z + (a + b + 3 * h)) := by nlinarith
  rw [e2] at e1
  calc x * y ≤ G * ((X + a) * (Y + b)) := e1
    _ ≤ G * (g * (z + (a + b + 3 * h))) := mul_le_mul_of_nonneg_left e4 (by linarith)
    _ = _ := by ring

theorem Near.refl {x : ℝ} : Near 0 x x := by constructor <;> simp
theorem Near.symm {i : ℕ} {x y : ℝ} (h : Near i x y) : Near i y x := ⟨h.2, h.1⟩

section
variable [FP] [FP.Lawful]

theorem rnd_near {x : ℝ} (hx : 0 ≤ x) :
    FP.rnd x ≤ (1 + 1 / 2 ^ 52) * (x + 1 / 2 ^ 1075) ∧ x ≤ (1 + 1 / 2 ^ 52) * (FP.rnd x + 1 / 2 ^ 1075) := by
  have h := abs_le.1 (FP.Lawful.rnd_err x)
  rw [abs_of_nonneg hx] at h
  have hη : (0:ℝ) ≤ 1 / 2 ^ 1075 := by positivity
  generalize (1:ℝ) / 2 ^ 1075 = η at *
  obtain ⟨h1, h2⟩ := h
  constructor
  · nlinarith
  · nlinarith

theorem rnd_nn {x : ℝ} (hx : 0 ≤ x) : 0 ≤ FP.rnd x := by
  have := FP.Lawful.rnd_mono hx; rwa [F64.rnd_zero] at this
theorem rnd_le_1 {x : ℝ} (hx : x ≤ 1) : FP.rnd x ≤ 1 := by
  have := FP.Lawful.rnd_mono hx; rwa [F64.rnd_one] at this

/-- one rounded product of numbers in `[0, 1]` -/
theorem Near.mul {i j : ℕ} {x y X Y : ℝ} (hij : (3 * i : ℝ) * (3 * j) ≤ 2 ^ 1075)
    (hx : 0 ≤ x ∧ x ≤ 1) (hy : 0 ≤ y ∧ y ≤ 1) (hX : 0 ≤ X ∧ X ≤ 1) (hY : 0 ≤ Y ∧ Y ≤ 1)
    (h1 : Near i X x) (h2 : Near j Y y) : Near (i + j + 1) (FP.rnd (X * Y)) (x * y) := by
  have hr := rnd_near (mul_nonneg hX.1 hY.1)
  have hz0 := rnd_nn (mul_nonneg hX.1 hY.1)
  unfold Near at *
  have hη : (0:ℝ) < 1 / 2 ^ 1075 := by positivity
  have hab : (3 * i * (1 / 2 ^ 1075)) * (3 * j * (1 / 2 ^ 1075)) ≤ (1:ℝ) / 2 ^ 1075 := by
    have : (3 * i * (1 / 2 ^ 1075)) * (3 * j * (1 / 2 ^ 1075)) = ((3 * i : ℝ) * (3 * j) / 2 ^ 1075) * (1 / 2 ^ 1075) := by ring
    rw [this]
    have h' : ((3 * i : ℝ) * (3 * j) / 2 ^ 1075) ≤ 1 := (div_le_one (by positivity)).2 hij
    exact mul_le_of_le_one_left hη.le h'
  have hg : (1:ℝ) ≤ 1 + 1 / 2 ^ 52 := by norm_num
  have hG : (1:ℝ) ≤ (1 + 1 / 2 ^ 52) ^ (i + j) := one_le_pow₀ hg
  have hi : (0:ℝ) ≤ i := Nat.cast_nonneg i
  have hj : (0:ℝ) ≤ j := Nat.cast_nonneg j
  have e : ((3:ℝ) * ((i + j + 1 : ℕ) : ℝ) * (1 / 2 ^ 1075)) = 3 * i * (1 / 2 ^ 1075) + 3 * j * (1 / 2 ^ 1075) + 3 * (1 / 2 ^ 1075) := by
    push_cast; ring
  rw [e, pow_succ]
  have ha : (0:ℝ) ≤ 3 * i * (1 / 2 ^ 1075) := by positivity
  have hb : (0:ℝ) ≤ 3 * j * (1 / 2 ^ 1075) := by positivity
  exact ⟨near_step hg hG hη.le ha hb hab hx.1 hx.2 hy.2 hX.1 hY.1 (by positivity) (by positivity) (pow_add _ _ _) h1.1 h2.1 hr.1,
    near_step' hg hG hη.le ha hb hab hx.1 hy.1 hX.1 hX.2 hY.2 hz0 (by positivity) (by positivity) (pow_add _ _ _) h1.2 h2.2 hr.2⟩

theorem unit_mul_is {a b : F64} {X Y : ℝ} (ha : a.Is X) (hb : b.Is Y) (hX : 0 ≤ X ∧ X ≤ 1) (hY : 0 ≤ Y ∧ Y ≤ 1) :
    (a * b).Is (FP.rnd (X * Y)) ∧ 0 ≤ FP.rnd (X * Y) ∧ FP.rnd (X * Y) ≤ 1 := by
  have h0 := mul_nonneg hX.1 hY.1
  have h1 := mul_le_one₀ hX.2 hY.1 hY.2
  exact ⟨mul_is ha hb (not_huge_of_le 1 (by norm_num) (by rw [abs_of_nonneg h0]; simpa using h1)), rnd_nn h0, rnd_le_1 h1⟩

/-- repeated squaring of a number in `[0, 1]` -/
theorem powiLoop_near : ∀ (n : ℕ) {a r : F64} {i j : ℕ} {x y X Y : ℝ}, (9 : ℝ) * (j + n * (i + 1)) ^ 2 ≤ 2 ^ 1075 →
    a.Is X → r.Is Y → (0 ≤ x ∧ x ≤ 1) → (0 ≤ y ∧ y ≤ 1) → (0 ≤ X ∧ X ≤ 1) → (0 ≤ Y ∧ Y ≤ 1) → Near i X x → Near j Y y →
    ∃ Z, (powiLoop a r n).Is Z ∧ (0 ≤ Z ∧ Z ≤ 1) ∧ Near (j + n * (i + 1)) Z (y * x ^ n) := by
  intro n
  induction n using Nat.strong_induction_on with
  | _ n ih =>
    intro a r i j x y X Y hb ha hr hx hy hX hY h1 h2
    have hi : (0:ℝ) ≤ i := Nat.cast_nonneg i
    have hj : (0:ℝ) ≤ j := Nat.cast_nonneg j
    have hodd : n % 2 = 1 → ∃ W, (r * a).Is W ∧ (0 ≤ W ∧ W ≤ 1) ∧ Near (j + i + 1) W (y * x) := by
      intro ho
      obtain ⟨g1, g2⟩ := unit_mul_is hr ha hY hX
      refine ⟨_, g1, g2, Near.mul ?_ hy hx hY hX h2 h1⟩
      have hn : (1:ℝ) ≤ n := by exact_mod_cast (by omega : 1 ≤ n)
      refine le_trans ?_ hb
      have : (i:ℝ) ≤ n * (i + 1) := by nlinarith
      nlinarith
    rw [powiLoop]
    by_cases hz : n / 2 = 0
    · rw [dif_pos hz]
      have hn : n = 0 ∨ n = 1 := by omega
      rcases hn with rfl | rfl
      · rw [if_neg (by norm_num)]
        exact ⟨Y, hr, hY, by simpa using h2⟩
      · rw [if_pos (by norm_num)]
        obtain ⟨W, w1, w2, w3⟩ := hodd (by norm_num)
        exact ⟨W, w1, w2, by simpa [add_assoc] using w3⟩
    · rw [dif_neg hz]
      obtain ⟨s1, s2⟩ := unit_mul_is ha ha hX hX
      have hm : (1:ℝ) ≤ (n / 2 : ℕ) := by exact_mod_cast (by omega : 1 ≤ n / 2)
      have hn2 : (2:ℝ) * (n / 2 : ℕ) ≤ n := by exact_mod_cast (by omega : 2 * (n / 2) ≤ n)
      have hsq : Near (i + i + 1) (FP.rnd (X * X)) (x * x) := by
        refine Near.mul ?_ hx hx hX hX h1 h1
        refine le_trans ?_ hb
        have : (i:ℝ) ≤ n * (i + 1) := by nlinarith
        nlinarith
      have hxx : 0 ≤ x * x ∧ x * x ≤ 1 := ⟨mul_self_nonneg x, mul_le_one₀ hx.2 hx.1 hx.2⟩
      by_cases ho : n % 2 = 1
      · rw [if_pos ho]
        obtain ⟨W, w1, w2, w3⟩ := hodd ho
        have hyx : 0 ≤ y * x ∧ y * x ≤ 1 := ⟨mul_nonneg hy.1 hx.1, mul_le_one₀ hy.2 hx.1 hx.2⟩
        have hnn : n = 2 * (n / 2) + 1 := by omega
        have ecost : j + i + 1 + n / 2 * (i + i + 1 + 1) = j + n * (i + 1) := by
          conv_rhs => rw [hnn]
          ring
        obtain ⟨Z, z1, z2, z3⟩ := ih (n / 2) (by omega) (by
          have : (((j + i + 1 : ℕ) : ℝ) + (n / 2 : ℕ) * ((i + i + 1 : ℕ) + 1)) = j + n * (i + 1) := by exact_mod_cast ecost
          rw [this]; exact hb) s1 w1 hxx hyx s2 w2 hsq w3
        refine ⟨Z, z1, z2, ?_⟩
        rw [ecost] at z3
        have : y * x * (x * x) ^ (n / 2) = y * x ^ n := by
          conv_rhs => rw [hnn]
          rw [pow_succ, pow_mul, pow_two]; ring
        rwa [this] at z3
      · rw [if_neg ho]
        have hnn : n = 2 * (n / 2) := by omega
        have ecost : j + n / 2 * (i + i + 1 + 1) = j + n * (i + 1) := by
          conv_rhs => rw [hnn]
          ring
        obtain ⟨Z, z1, z2, z3⟩ := ih (n / 2) (by omega) (by
          have : ((j : ℝ) + (n / 2 : ℕ) * ((i + i + 1 : ℕ) + 1)) = j + n * (i + 1) := by exact_mod_cast ecost
          rw [this]; exact hb) s1 hr hxx hy s2 hY hsq h2
        refine ⟨Z, z1, z2, ?_⟩
        rw [ecost] at z3
        have : y * (x * x) ^ (n / 2) = y * x ^ n := by
          conv_rhs => rw [hnn]
          rw [pow_mul, pow_two]
        rwa [this] at z3

/-- `powi` with an exponent below 2^31 of a number in `[0, 1]` known up to `i ≤ 1` roundings -/
theorem powi_near {a : F64} {i n : ℕ} {x X : ℝ} (hi : i ≤ 1) (hn : n < 2 ^ 32) (ha : a.Is X) (hx : 0 ≤ x ∧ x ≤ 1) (hX : 0 ≤ X ∧ X ≤ 1)
    (h : Near i X x) : ∃ Z, (F64.powi a (n : ℤ)).Is Z ∧ (0 ≤ Z ∧ Z ≤ 1) ∧ Near (n * (i + 1)) Z (x ^ n) := by
  unfold F64.powi
  rw [if_neg (by omega), Int.natAbs_natCast]
  have hi' : (i:ℝ) ≤ 1 := by exact_mod_cast hi
  have hn' : (n:ℝ) ≤ 2 ^ 32 := by exact_mod_cast hn.le
  obtain ⟨Z, h1, h2, h3⟩ := powiLoop_near n (a := a) (r := fin 1) (i := i) (j := 0) (x := x) (y := 1) (X := X) (Y := 1) (by
    have h0 : (0:ℝ) ≤ i := Nat.cast_nonneg i
    have h0' : (0:ℝ) ≤ n := Nat.cast_nonneg n
    have : ((0:ℕ):ℝ) + n * (i + 1) ≤ 2 ^ 32 * 2 := by
      rw [Nat.cast_zero, zero_add]; exact mul_le_mul hn' (by linarith) (by linarith) (by norm_num)
    have h2 : (((0:ℕ):ℝ) + n * (i + 1)) ^ 2 ≤ (2 ^ 32 * 2) ^ 2 := pow_le_pow_left₀ (by positivity) this 2
    calc (9:ℝ) * (((0:ℕ):ℝ) + n * (i + 1)) ^ 2 ≤ 9 * (2 ^ 32 * 2) ^ 2 := by linarith
      _ ≤ 2 ^ 70 := by norm_num
      _ ≤ 2 ^ 1075 := pow_le_pow_right₀ (by norm_num) (by norm_num)) ha (Is.fin 1) hx ⟨zero_le_one, le_rfl⟩ hX ⟨zero_le_one, le_rfl⟩ h Near.refl
  exact ⟨Z, h1, h2, by simpa using h3⟩
end

/-- `(1 + 2^-52)^N ≤ 1 + N 2^-51` as long as `N ≤ 2^52` -/
theorem growth (N : ℕ) (hN : N ≤ 2 ^ 50) : ((1:ℝ) + 1 / 2 ^ 52) ^ N ≤ 1 + N / 2 ^ 51 := by
  induction N with
  | zero => simp
  | succ n ih =>
    have h1 := ih (by omega)
    have hn : (n:ℝ) ≤ 2 ^ 50 := by exact_mod_cast (by omega : n ≤ 2 ^ 50)
    have h0 : (0:ℝ) ≤ n := Nat.cast_nonneg n
    rw [pow_succ]
    calc ((1:ℝ) + 1 / 2 ^ 52) ^ n * (1 + 1 / 2 ^ 52) ≤ (1 + n / 2 ^ 51) * (1 + 1 / 2 ^ 52) := by
          exact mul_le_mul_of_nonneg_right h1 (by norm_num)
      _ ≤ 1 + ((n + 1 : ℕ) : ℝ) / 2 ^ 51 := by push_cast; nlinarith

/-- from `Near` to relative and absolute error -/
theorem Near.abs {N : ℕ} {X x : ℝ} (hN : N ≤ 2 ^ 40) (hx : 0 ≤ x) (h : Near N X x) :
    |X - x| ≤ N / 2 ^ 51 * x + 1 / 2 ^ 1030 := by
  have hg := growth N (by omega)
  have hg1 : (1:ℝ) ≤ (1 + 1 / 2 ^ 52) ^ N := one_le_pow₀ (by norm_num)
  have hn : (N:ℝ) ≤ 2 ^ 40 := by exact_mod_cast hN
  have h0 : (0:ℝ) ≤ N := Nat.cast_nonneg N
  unfold Near at h
  have hη : (3 * N * (1 / 2 ^ 1075) : ℝ) ≤ 1 / 2 ^ 1033 := by
    calc (3 * N * (1 / 2 ^ 1075) : ℝ) ≤ 2 ^ 42 * (1 / 2 ^ 1075) := by
          apply mul_le_mul_of_nonneg_right _ (by positivity); norm_num; linarith
      _ = 1 / 2 ^ 1033 := by rw [show (1075:ℕ) = 42 + 1033 by norm_num, pow_add]; field_simp
  have hη0 : (0:ℝ) ≤ 3 * N * (1 / 2 ^ 1075) := by positivity
  have hq : (1:ℝ) / 2 ^ 1033 * 8 = 1 / 2 ^ 1030 := by
    rw [show (1033:ℕ) = 1030 + 3 by norm_num, pow_add]; field_simp; norm_num
  have hq0 : (0:ℝ) < 1 / 2 ^ 1033 := by positivity
  generalize (3 * N * (1 / 2 ^ 1075) : ℝ) = e at *
  rw [← hq]
  generalize (1:ℝ) / 2 ^ 1033 = η at *
  generalize ((1:ℝ) + 1 / 2 ^ 52) ^ N = G at *
  have hd : (N:ℝ) / 2 ^ 51 ≤ 1 := by rw [div_le_one (by norm_num)]; linarith
  have hd0 : (0:ℝ) ≤ N / 2 ^ 51 := by positivity
  generalize (N:ℝ) / 2 ^ 51 = δ at *
  obtain ⟨h1, h2⟩ := h
  rw [abs_le]
  constructor
  · by_cases hXx : X ≤ x
    · nlinarith
    · nlinarith
  · nlinarith
end Rstat
