import Verif.Props.FloatAccuracy6
import Verif.Lemmas.TriangularPert
import Verif.Props.Dist.Triangular

/-! C267: the triangular distribution function in floating point. -/
set_option linter.unusedSectionVars false
namespace Rstat
open F64 Spec Consts
section
variable [FP] [FP.Lawful] [FP.Libm] [FP.Accurate]

theorem rnd_small {x : ℝ} {n : ℕ} (hn : n ≤ 1000) (h0 : 0 ≤ x) (h : x ≤ 1 / 2 ^ n) : 0 ≤ FP.rnd x ∧ FP.rnd x ≤ 1 / 2 ^ n ∧ ¬ FP.huge (FP.rnd x) := by
  have d0 := FP.Lawful.rnd_mono h0
  have d1 := FP.Lawful.rnd_mono h
  have e0 : FP.rnd 0 = 0 := F64.rnd_zero
  have e1 := FP.Lawful.rnd_dyadic 1 n (by norm_num) hn
  rw [Int.cast_one] at e1
  rw [e0] at d0; rw [e1] at d1
  refine ⟨d0, d1, FP.Lawful.not_huge _ ?_⟩
  rw [abs_of_nonneg d0]
  refine d1.trans ?_
  have : (1:ℝ) / 2 ^ n ≤ 1 := by rw [div_le_one (by positivity)]; exact one_le_pow₀ (by norm_num)
  exact this.trans (one_le_pow₀ (by norm_num))

/-- `D * D / W / P` for three computed differences -/
theorem tri_quot {D W P : F64} {d w p t w' p' : ℝ} (hD : D.Is d) (hW : W.Is w') (hP : P.Is p') (ed : |d - t| ≤ t / 2 ^ 53)
    (ew : |w' - w| ≤ w / 2 ^ 53) (ep : |p' - p| ≤ p / 2 ^ 53) (t0 : 0 ≤ t) (tp : t ≤ p) (pw : p ≤ w) (h1 : 1 / 2 ^ 200 ≤ p) (h2 : w ≤ 2 ^ 200) :
    Within (D * D / W / P) (t ^ 2 / (w * p)) (7 / 2 ^ 52) := by
  have p0 : 0 < p := lt_of_lt_of_le (by positivity) h1
  have w0 : 0 < w := p0.trans_le pw
  rcases le_or_gt (1 / 2 ^ 250 : ℝ) t with ht | ht
  · have up : p ≤ 2 ^ 200 := pw.trans h2
    have uw := h1.trans pw
    have mk : ∀ {A : F64} {y s : ℝ} {k : ℕ}, A.Is y → |y - s| ≤ s / 2 ^ 53 → 0 ≤ s → 1 / 2 ^ k ≤ s → s ≤ 2 ^ k → Rel A s k 1 := by
      intro A y s k hA he hs g1 g2
      refine ⟨by rwa [abs_of_nonneg hs], by rwa [abs_of_nonneg hs], y, hA, he.trans ?_⟩
      rw [abs_of_nonneg hs, div_mul_eq_mul_div, Nat.cast_one, one_mul]
      gcongr <;> norm_num
    have rD : Rel D t 250 1 := mk hD ed t0 ht (tp.trans (up.trans (pow_le_pow_right₀ (by norm_num) (by norm_num))))
    have rW : Rel W w 200 1 := mk hW ew w0.le uw h2
    have rP : Rel P p 200 1 := mk hP ep p0.le h1 up
    have r := (((rD.mul rD (by norm_num) (by norm_num)).div rW (by norm_num) (by norm_num)).div rP (by norm_num) (by norm_num)).congr
      (show t * t / w / p = t ^ 2 / (w * p) by rw [div_div, sq])
    refine (r.within 1 ?_).mono (by norm_num)
    rw [abs_of_nonneg (by positivity), div_le_one (by positivity), sq]
    exact mul_le_mul (tp.trans pw) tp t0 w0.le
  · obtain ⟨d1, d2⟩ := abs_le.1 ed
    obtain ⟨w1, w2⟩ := abs_le.1 ew
    obtain ⟨p1, p2⟩ := abs_le.1 ep
    have dn : 0 ≤ d := by have : t / 2 ^ 53 ≤ t := div_le_self t0 (by norm_num); linarith
    have dm : d ≤ 1 / 2 ^ 249 := by
      have h3 : t / 2 ^ 53 ≤ t := div_le_self t0 (by norm_num)
      have h4 : (1:ℝ) / 2 ^ 249 = 2 * (1 / 2 ^ 250) := by rw [pow_succ]; field_simp
      rw [h4]; linarith
    have wm : 1 / 2 ^ 201 ≤ w' := by
      have h3 : w / 2 ^ 53 ≤ w / 2 := by gcongr; norm_num
      have h4 : (1:ℝ) / 2 ^ 201 = 1 / 2 ^ 200 / 2 := by rw [pow_succ]; field_simp
      rw [h4]; linarith
    have pm : 1 / 2 ^ 201 ≤ p' := by
      have h3 : p / 2 ^ 53 ≤ p / 2 := by gcongr; norm_num
      have h4 : (1:ℝ) / 2 ^ 201 = 1 / 2 ^ 200 / 2 := by rw [pow_succ]; field_simp
      rw [h4]; linarith
    have stp : ∀ {x v : ℝ} {n m : ℕ}, n = m + 201 → 0 ≤ x → x ≤ 1 / 2 ^ n → 1 / 2 ^ 201 ≤ v → 0 ≤ x / v ∧ x / v ≤ 1 / 2 ^ m := by
      intro x v n m hn x0 hx hv
      have v0 : 0 < v := lt_of_lt_of_le (by positivity) hv
      refine ⟨by positivity, ?_⟩
      rw [div_le_iff₀ v0]
      calc x ≤ 1 / 2 ^ m * (1 / 2 ^ 201) := by rw [one_div_mul_one_div, ← pow_add, ← hn]; exact hx
        _ ≤ _ := by gcongr
    have s1 := rnd_small (x := d * d) (n := 498) (by norm_num) (by positivity) (by
      calc d * d ≤ 1 / 2 ^ 249 * (1 / 2 ^ 249) := by gcongr
        _ = _ := by rw [one_div_mul_one_div, ← pow_add])
    have i1 := mul_is hD hD s1.2.2
    obtain ⟨a1, a2⟩ := stp (n := 498) (m := 297) (by norm_num) s1.1 s1.2.1 wm
    have s2 := rnd_small (by norm_num) a1 a2
    have i2 := div_is i1 hW (ne_of_gt (lt_of_lt_of_le (by positivity) wm)) s2.2.2
    obtain ⟨b1, b2⟩ := stp (n := 297) (m := 96) (by norm_num) s2.1 s2.2.1 pm
    have s3 := rnd_small (by norm_num) b1 b2
    have i3 := div_is i2 hP (ne_of_gt (lt_of_lt_of_le (by positivity) pm)) s3.2.2
    refine ⟨_, i3, ?_⟩
    have tt : t ^ 2 / (w * p) ≤ 1 / 2 ^ 50 := by
      rw [div_le_iff₀ (by positivity)]
      calc t ^ 2 ≤ (1 / 2 ^ 250) ^ 2 := by gcongr
        _ ≤ 1 / 2 ^ 50 * (1 / 2 ^ 200 * (1 / 2 ^ 200)) := by
          rw [one_div_mul_one_div, one_div_mul_one_div, div_pow, one_pow, ← pow_mul, ← pow_add, ← pow_add]
          exact one_div_le_one_div_of_le (by positivity) (pow_le_pow_right₀ (by norm_num) (by norm_num))
        _ ≤ _ := by have := h1.trans pw; gcongr
    have y1 : (1:ℝ) / 2 ^ 96 ≤ 1 / 2 ^ 50 := one_div_le_one_div_of_le (by positivity) (pow_le_pow_right₀ (by norm_num) (by norm_num))
    have tn : 0 ≤ t ^ 2 / (w * p) := by positivity
    have n49 : (1:ℝ) / 2 ^ 50 ≤ 7 / 2 ^ 52 := by norm_num
    rw [abs_le]
    constructor
    · linarith [s3.1]
    · linarith [s3.2.1]

theorem isF64_sum {a b : F64} {r s : ℝ} (ha : a.Is r) (hb : b.Is s) : IsF64 (a + b) := by
  intro t ht
  have e := add_ext ha hb
  have i : (F64.round (r + s)).Is t := Is.of_ext ht e
  by_cases hh : FP.huge (FP.rnd (r + s))
  · unfold F64.round at i
    rw [if_pos hh] at i
    split_ifs at i <;> simp [Is] at i
  · obtain rfl := (round_is hh).eq i
    exact ⟨FP.Lawful.rnd_idem _, hh⟩

/-- C267 (part): the triangular distribution function, with lower corner `m` and legs `u`, `v`, is within `2^-48 + |m| / (u + v) 2^-50` of the real
one at every finite f64: the code places the upper corners at rounded sums, whose error is relative to the corner and not to the width -/
theorem C267_triangular_partial {a p q : F64} {m u v : ℝ} {d : Triangular} (h : Triangular.new a p q = .ok d) (fa : IsF64 a) (ha : a.Is m)
    (hp : p.Is u) (hq : q.Is v) (u1 : 1 / 2 ^ 150 ≤ u) (u2 : u ≤ 2 ^ 150) (v1 : 1 / 2 ^ 150 ≤ v) (v2 : v ≤ 2 ^ 150)
    (mu : |m| ≤ 2 ^ 50 * u) (mv : |m| + u ≤ 2 ^ 50 * v) :
    AccurateCDF d.cdf (triangularCDF m (m + u + v) (m + u)) Set.univ (1 / 2 ^ 48 + |m| / (u + v) / 2 ^ 50) := by
  obtain ⟨hu0, hv0, rfl⟩ := Triangular.new_ok.1 h
  have u0 := pos_of_lt hu0 hp
  have v0 := pos_of_lt hv0 hq
  have n0 := abs_nonneg m
  have tn : (1:ℝ) / 2 ^ 1075 ≤ 1 / 2 ^ 150 / 2 ^ 120 := by
    rw [div_div, ← pow_add]; exact one_div_le_one_div_of_le (by positivity) (pow_le_pow_right₀ (by norm_num) (by norm_num))
  have tu : (1:ℝ) / 2 ^ 1075 ≤ u / 2 ^ 120 := tn.trans (by gcongr)
  have tv : (1:ℝ) / 2 ^ 1075 ≤ v / 2 ^ 120 := tn.trans (by gcongr)
  clear tn
  -- the corner `c`
  have ec := FP.Lawful.rnd_err (m + u)
  have ab1 := abs_add_le m u
  rw [abs_of_pos u0] at ab1
  have big : ∀ y : ℝ, |y| ≤ 2 ^ 210 → ¬ FP.huge (FP.rnd y) := fun y hy hh =>
    absurd ((huge_big hh).trans hy) (not_le.2 (pow_lt_pow_right₀ (by norm_num) (by norm_num)))
  have M1 : |m| ≤ 2 ^ 200 := by
    refine mu.trans ?_
    rw [show (2:ℝ) ^ 200 = 2 ^ 50 * 2 ^ 150 by rw [← pow_add]]; gcongr
  have M2 : (2:ℝ) ^ 210 = 1024 * 2 ^ 200 := by rw [show (1024:ℝ) = 2 ^ 10 by norm_num, ← pow_add]
  have M3 : (2:ℝ) ^ 150 ≤ 2 ^ 200 := pow_le_pow_right₀ (by norm_num) (by norm_num)
  have M4 : (0:ℝ) < 2 ^ 200 := by positivity
  have hc : (Triangular.c ⟨a, p, q⟩).Is (FP.rnd (m + u)) := add_is ha hp (big _ (by rw [M2]; linarith))
  have fc : IsF64 (Triangular.c ⟨a, p, q⟩) := isF64_sum ha hp
  have ec2 : |FP.rnd (m + u) - (m + u)| ≤ (|m| + u) / 2 ^ 52 := by
    refine ec.trans ?_
    have k1 : |m + u| / 2 ^ 53 ≤ (|m| + u) / 2 ^ 53 := by gcongr
    generalize (1:ℝ) / 2 ^ 1075 = η at *
    clear M1 M2 M3 M4 big mu mv u1 v1 u2 v2
    norm_num at *; linarith [abs_nonneg m]
  generalize FP.rnd (m + u) = c at *
  obtain ⟨c1, c2⟩ := abs_le.1 ec2
  have cm : |c - m| ≤ 3 * u := by
    rw [abs_le]; constructor <;> · clear M1 M2 M3 M4 big mv u1 v1 u2 v2 tu tv ec; norm_num at *; linarith [abs_nonneg m]
  have cm1 : u / 2 ≤ c - m := by clear M1 M2 M3 M4 big mv u1 v1 u2 v2 tu tv ec; norm_num at *; linarith [abs_nonneg m]
  -- the corner `b`
  have eb := FP.Lawful.rnd_err (c + v)
  have cabs : |c| ≤ |m| + 3 * u := by
    have := abs_add_le (c - m) m
    rw [sub_add_cancel] at this; linarith
  have ab2 := abs_add_le c v
  rw [abs_of_pos v0] at ab2
  have hb : (Triangular.b ⟨a, p, q⟩).Is (FP.rnd (c + v)) := add_is hc hq (big _ (by rw [M2]; linarith))
  have fb : IsF64 (Triangular.b ⟨a, p, q⟩) := isF64_sum hc hq
  have eb2 : |FP.rnd (c + v) - (c + v)| ≤ (|m| + 3 * u + v) / 2 ^ 52 := by
    refine eb.trans ?_
    have k1 : |c + v| / 2 ^ 53 ≤ (|m| + 3 * u + v) / 2 ^ 53 := by gcongr; linarith
    generalize (1:ℝ) / 2 ^ 1075 = η at *
    clear M1 M2 M3 M4 big mu mv u1 v1 u2 v2
    norm_num at *; linarith [abs_nonneg m]
  generalize FP.rnd (c + v) = b at *
  obtain ⟨b1, b2⟩ := abs_le.1 eb2
  clear big ec eb tu tv
  have bc1 : v / 8 ≤ b - c := by clear M1 M2 M3 M4 mu u1 v1 u2 v2 ec2; norm_num at *; linarith [abs_nonneg m]
  have bc2 : b - c ≤ 2 * v := by clear M1 M2 M3 M4 mu u1 v1 u2 v2 ec2; norm_num at *; linarith [abs_nonneg m]
  have M5 : (2:ℝ) ^ 160 = 1024 * 2 ^ 150 := by rw [show (1024:ℝ) = 2 ^ 10 by norm_num, ← pow_add]
  have M6 : (2:ℝ) ^ 160 ≤ 2 ^ 200 := pow_le_pow_right₀ (by norm_num) (by norm_num)
  have M7 : (1:ℝ) / 2 ^ 200 ≤ 1 / 2 ^ 150 / 8 := by
    rw [show (1:ℝ) / 2 ^ 150 / 8 = 1 / 2 ^ 153 by rw [div_div, show (8:ℝ) = 2 ^ 3 by norm_num, ← pow_add]]
    exact one_div_le_one_div_of_le (by positivity) (pow_le_pow_right₀ (by norm_num) (by norm_num))
  have M8 : (0:ℝ) < 2 ^ 150 := by positivity
  obtain ⟨cm0, cm3⟩ := abs_le.1 cm
  have W0 : 0 < b - m := by linarith
  have W2 : b - m ≤ 2 ^ 200 := by linarith
  have P1 : 1 / 2 ^ 200 ≤ c - m := by linarith
  have P2 : 1 / 2 ^ 200 ≤ b - c := by linarith
  have E : |b - (m + u + v)| ≤ (2 * |m| + 4 * (u + v)) / 2 ^ 52 := by
    rw [abs_le]; constructor <;> · clear M1 M2 M3 M4 M5 M6 M7 M8 W2 P1 P2 mu mv u1 v1 u2 v2 ec2 eb2 cm; norm_num at *; linarith [abs_nonneg m]
  have E' : |c - (m + u)| ≤ (2 * |m| + 4 * (u + v)) / 2 ^ 52 := by
    refine ec2.trans (div_le_div_of_nonneg_right ?_ (by positivity)); linarith
  have dif : ∀ {A B : F64} {y z : ℝ}, IsF64 A → IsF64 B → A.Is y → B.Is z → z ≤ y → y - z ≤ 2 ^ 200 →
      ∃ δ, (A - B).Is δ ∧ |δ - (y - z)| ≤ (y - z) / 2 ^ 53 := by
    intro A B y z fA fB hA hB hzy hs
    refine ⟨_, sub_is hA hB (fun hh => ?_), ?_⟩
    · have h1 := (huge_big hh)
      rw [abs_of_nonneg (sub_nonneg.2 hzy)] at h1
      exact absurd (h1.trans hs) (not_le.2 (pow_lt_pow_right₀ (by norm_num) (by norm_num)))
    · have := FP.Accurate.sub_acc y z (fA y hA).1 (fB z hB).1
      rwa [abs_of_nonneg (sub_nonneg.2 hzy)] at this
  clear M1 M2 M3 M4 M5 M6 M7 M8 mu mv u1 v1 u2 v2 ab1 ab2
  intro x r fx hx _
  have pert := tri_pert (a := m) (by linarith : m < m + u) (by linarith : m + u < m + u + v) (by linarith : m ≤ c) (by linarith : c ≤ b) E E' r
  rw [show 2 / (m + u + v - m) * ((2 * |m| + 4 * (u + v)) / 2 ^ 52) = |m| / (u + v) / 2 ^ 50 + 8 / 2 ^ 52 by
    have : u + v ≠ 0 := by positivity
    rw [show m + u + v - m = u + v by ring]
    field_simp; ring] at pert
  have key : Within ((Triangular.cdf ⟨a, p, q⟩ x).val) (triangularCDF m b c r) (31 / 4 / 2 ^ 52) := by
    obtain ⟨w, hw, we⟩ := dif fb fa hb ha (by linarith) W2
    unfold Triangular.cdf triangularCDF; dsimp only
    by_cases g1 : x ≤ a
    · rw [if_pos g1, if_pos ((hx.le_iff ha).1 g1)]
      exact (Within.exact (Is.fin 0)).mono (by positivity)
    have r1 : m < r := not_le.1 fun hh => g1 ((hx.le_iff ha).2 hh)
    rw [if_neg g1, if_neg (not_le.2 r1)]
    by_cases g2 : x ≤ Triangular.c ⟨a, p, q⟩
    · have r2 := (hx.le_iff hc).1 g2
      rw [if_pos g2, if_pos r2]
      obtain ⟨t, ht, te⟩ := dif fx fa hx ha r1.le (by linarith)
      obtain ⟨k, hk, ke⟩ := dif fc fa hc ha (by linarith) (by linarith)
      exact (tri_quot ht hw hk te we ke (by linarith) (by linarith) (by linarith) P1 W2).mono (by norm_num)
    have r2 : c < r := not_le.1 fun hh => g2 ((hx.le_iff hc).2 hh)
    rw [if_neg g2, if_neg (not_le.2 r2)]
    by_cases g3 : x ≤ Triangular.b ⟨a, p, q⟩
    · have r3 := (hx.le_iff hb).1 g3
      rw [if_pos g3]
      obtain ⟨t, ht, te⟩ := dif fb fx hb hx r3 (by linarith)
      obtain ⟨k, hk, ke⟩ := dif fb fc hb hc (by linarith) (by linarith)
      have tq := tri_quot ht hw hk te we ke (by linarith) (by linarith) (by linarith) P2 W2
      have q0 : 0 ≤ (b - r) ^ 2 / ((b - m) * (b - c)) := by
        have : 0 < b - c := by linarith
        positivity
      have q1 : (b - r) ^ 2 / ((b - m) * (b - c)) ≤ 1 := by
        have : 0 < b - c := by linarith
        rw [div_le_one (by positivity), sq]
        exact mul_le_mul (by linarith) (by linarith) (by linarith) W0.le
      have e : (if r < b then 1 - (b - r) ^ 2 / ((b - m) * (b - c)) else 1) = 1 - (b - r) ^ 2 / ((b - m) * (b - c)) := by
        split_ifs with g
        · rfl
        · have : b - r = 0 := by linarith
          rw [this]; simp
      rw [e]
      exact Within.sub (ε := 0) (δ := 7 / 2 ^ 52) 1 (Within.exact Is.one) tq (by rw [abs_le]; constructor <;> linarith) (by norm_num) (by norm_num)
    · have r3 : b < r := not_le.1 fun hh => g3 ((hx.le_iff hb).2 hh)
      rw [if_neg g3, if_neg (not_lt.2 r3.le)]
      exact (Within.exact Is.one).mono (by positivity)
  obtain ⟨y, hy, ye⟩ := key
  refine ⟨y, hy, ?_⟩
  have := abs_sub_le y (triangularCDF m b c r) (triangularCDF m (m + u + v) (m + u) r)
  have n1 : (31 / 4 / 2 ^ 52 : ℝ) + 8 / 2 ^ 52 ≤ 1 / 2 ^ 48 := by norm_num
  linarith

end

section
open B64
attribute [local instance] binary64 binary64_lawful B64.libm B64.specialFns B64.accurate

/-- C267 (violation): the triangular law on `[2^53, 2^53 + 3]` with peak at `2^53 + 1/2` reaches 1 at `2^53 + 2`, because the code's upper corner
rounds there; the real distribution function is `13/15` -/
theorem C267_triangular_violated : ∃ d, Triangular.new (fin (2 ^ 53)) (fin (1 / 2)) (fin (5 / 2)) = .ok d ∧ IsF64 (fin (2 ^ 53)) ∧
    ¬ AccurateCDF d.cdf (triangularCDF (2 ^ 53) (2 ^ 53 + 1 / 2 + 5 / 2) (2 ^ 53 + 1 / 2)) Set.univ (1 / 8) := by
  have f1 : IsF64 (fin (2 ^ 53)) := isF64_pow 53 (by norm_num)
  refine ⟨_, Triangular.new_ok.2 ⟨lt_of_pos (by norm_num) (Is.fin _), lt_of_pos (by norm_num) (Is.fin _), rfl⟩, f1, fun H => ?_⟩
  have rc : B64.rnd ((2:ℝ) ^ 53 + 1 / 2) = 2 ^ 53 := by
    have := rnd_eq (x := (2:ℝ) ^ 53 + 1 / 2) (2 ^ 52) 1 (by norm_num) (by norm_num) (by norm_num) (by rw [abs_lt]; constructor <;> norm_num)
    rw [this]; norm_num
  have rb : B64.rnd ((2:ℝ) ^ 53 + 5 / 2) = 2 ^ 53 + 2 := by
    have := rnd_eq (x := (2:ℝ) ^ 53 + 5 / 2) (2 ^ 52 + 1) 1 (by norm_num) (by norm_num) (by norm_num) (by rw [abs_lt]; constructor <;> norm_num)
    rw [this]; norm_num
  have nh : ∀ y : ℝ, |y| ≤ 2 ^ 60 → ¬ FP.huge y := fun y hy hh => by
    have : (2:ℝ) ^ 1024 ≤ |y| := hh
    exact absurd (this.trans hy) (not_le.2 (pow_lt_pow_right₀ (by norm_num) (by norm_num)))
  have hc : (Triangular.c ⟨fin (2 ^ 53), fin (1 / 2), fin (5 / 2)⟩).Is (2 ^ 53) := by
    have h : FP.rnd ((2:ℝ) ^ 53 + 1 / 2) = 2 ^ 53 := rc
    have := add_is (Is.fin ((2:ℝ) ^ 53)) (Is.fin (1 / 2)) (by rw [h]; exact nh _ (by rw [abs_of_pos (by positivity)]; norm_num))
    rwa [h] at this
  have hb : (Triangular.b ⟨fin (2 ^ 53), fin (1 / 2), fin (5 / 2)⟩).Is (2 ^ 53 + 2) := by
    have h : FP.rnd ((2:ℝ) ^ 53 + 5 / 2) = 2 ^ 53 + 2 := rb
    have := add_is hc (Is.fin (5 / 2)) (by rw [h]; exact nh _ (by rw [abs_of_pos (by positivity)]; norm_num))
    rwa [h] at this
  have r2 : B64.rnd (2:ℝ) = 2 := by
    have := rnd_two_pow (e := 1) (by norm_num)
    rwa [zpow_one] at this
  have rx : B64.rnd ((2:ℝ) ^ 53 + 2) = 2 ^ 53 + 2 := by rw [← rb, B64.rnd_idem]
  have fx : IsF64 (fin (2 ^ 53 + 2)) := isF64_of rx (by
    rw [abs_of_pos (by positivity)]
    exact lt_of_lt_of_le (by norm_num : (2:ℝ) ^ 53 + 2 < 2 ^ 54) (pow_le_pow_right₀ (by norm_num) (by norm_num)))
  obtain ⟨p, hp, he⟩ := H (fin (2 ^ 53 + 2)) (2 ^ 53 + 2) fx (Is.fin _) trivial
  have hx := Is.fin ((2:ℝ) ^ 53 + 2)
  have hd : ∀ {A B : F64} {y z : ℝ}, A.Is y → B.Is z → y - z = 2 → (A - B).Is 2 := by
    intro A B y z hA hB e
    have h : FP.rnd (y - z) = 2 := by rw [e]; exact r2
    have := sub_is hA hB (by rw [h]; exact nh _ (by norm_num))
    rwa [h] at this
  have h0 : (Triangular.b ⟨fin (2 ^ 53), fin (1 / 2), fin (5 / 2)⟩ - fin (2 ^ 53 + 2)).Is 0 := by
    have := sub_is hb hx (by rw [sub_self, F64.rnd_zero]; exact nh _ (by norm_num))
    rwa [sub_self, F64.rnd_zero] at this
  have e1 : p = 1 := by
    unfold Triangular.cdf Probability.newUnchecked at hp; dsimp only at hp
    rw [if_neg (fun g => absurd ((hx.le_iff (Is.fin _)).1 g) (by norm_num)), if_neg (fun g => absurd ((hx.le_iff hc).1 g) (by norm_num)),
      if_pos ((hx.le_iff hb).2 le_rfl)] at hp
    have k1 := mul_is h0 h0 (by rw [mul_zero, F64.rnd_zero]; exact nh _ (by norm_num))
    rw [mul_zero, F64.rnd_zero] at k1
    have k2 := div_is k1 (hd hb (Is.fin ((2:ℝ) ^ 53)) (by ring)) two_ne_zero (by rw [zero_div, F64.rnd_zero]; exact nh _ (by norm_num))
    rw [zero_div, F64.rnd_zero] at k2
    have k3 := div_is k2 (hd hb hc (by ring)) two_ne_zero (by rw [zero_div, F64.rnd_zero]; exact nh _ (by norm_num))
    rw [zero_div, F64.rnd_zero] at k3
    have k4 := sub_is Is.one k3 (by rw [sub_zero, F64.rnd_one]; exact not_huge_one)
    rw [sub_zero, F64.rnd_one] at k4
    exact hp.eq k4
  rw [e1, triangularCDF, if_neg (by norm_num), if_neg (by norm_num), if_pos (by norm_num)] at he
  norm_num [abs_of_pos] at he

example : ∃ p : ℝ, (Triangular.cdf ⟨fin 4, fin 2, fin 1⟩ (fin 5)).val.Is p ∧
    |p - triangularCDF 4 (4 + 2 + 1) (4 + 2) 5| ≤ 1 / 2 ^ 48 + |4| / (2 + 1) / 2 ^ 50 := by
  have f4 : IsF64 (fin 4) := by have := isF64_pow 2 (by norm_num); norm_num at this; exact this
  have f5 : IsF64 (fin 5) := isF64_of (by
    have := rnd_eq (x := (5:ℝ)) (5 * 2 ^ 50) (-50) (by norm_num) (by norm_num) (by norm_num) (by norm_num)
    rw [this]; norm_num) (by rw [abs_of_pos (by norm_num)]; exact lt_of_lt_of_le (by norm_num : (5:ℝ) < 2 ^ 3) (pow_le_pow_right₀ (by norm_num) (by norm_num)))
  exact C267_triangular_partial (m := 4) (u := 2) (v := 1)
    (Triangular.new_ok.2 ⟨lt_of_pos (by norm_num) (Is.fin _), lt_of_pos (by norm_num) (Is.fin _), rfl⟩) f4 (Is.fin _) (Is.fin _) (Is.fin _)
    (by norm_num) (by norm_num) (by norm_num) (by norm_num) (by norm_num) (by norm_num) (fin 5) 5 f5 (Is.fin _) trivial
end
end Rstat
