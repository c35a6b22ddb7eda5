import Verif.Lemmas.FloatRel5
import Verif.Spec.FloatMoments
import Verif.Props.Dist.Gamma
import Verif.Props.Dist.Erlang
import Verif.Props.Dist.Pareto
import Verif.Props.Dist.Chi
import Verif.Props.Dist.Laplace
import Verif.Props.Dist.Arcsine
import Verif.Props.Dist.Rayleigh
import Verif.Props.Dist.Cosine
import Verif.Props.Dist.InvNormal

/-! C254: in floating point the moments have relative errors of a few units in the last place. First part: continuous families. -/
set_option linter.unusedSectionVars false
namespace Rstat
open F64 Spec Consts Real

theorem Spec.Ordinary.pos {s : ℝ} (h : Ordinary s) : 0 < s := lt_of_lt_of_le (by positivity) h.1

section exactReals
attribute [local instance] exactFP exactFP_exact

theorem is_uniq {a : F64} {x y : ℝ} (h : a.Is x) (h' : a.Is y) : x = y := by rw [← h.toReal_eq, h'.toReal_eq]

theorem returns_uniq {E : Type} {e : Except E F64} {a : F64} {x y : ℝ} (h : Returns e x) (h' : e = .ok a) (ha : a.Is y) : x = y := by
  obtain ⟨b, hb, hx⟩ := h
  rw [h'] at hb
  cases hb
  exact is_uniq hx ha

/-- the moments of the Pareto law in closed form -/
theorem pareto_moments_real {m α : ℝ} (hm : 0 < m) (hα : 0 < α) :
    (1 < α → HasMean (Spec.paretoPDF m α) (α * m / (α - 1))) ∧
    (2 < α → HasMeanVar (Spec.paretoPDF m α) (α * m / (α - 1)) (m * m * α / (α - 1) / (α - 1) / (α - 2))) ∧
    (3 < α → HasSkew (Spec.paretoPDF m α) (2 * (1 + α) / (α - 3) * √((α - 2) / α))) ∧
    (4 < α → HasKurt (Spec.paretoPDF m α) (6 * (α * α * α + α * α - 6 * α - 2) / α / (α - 3) / (α - 4) + 3)) := by
  have hd : Pareto.new (fin m) (fin α) = .ok ⟨fin m, fin α⟩ := Pareto.new_ok.2 ⟨lt_of_pos hα (Is.fin _), rfl⟩
  have ia := Is.fin m
  have ib := Is.fin α
  obtain ⟨-, -, -, -, -, h1, -, h2, -, h3, -, h4, -⟩ := C73_pareto hd ia ib hm
  have nle : ∀ {c : ℝ} {x : F64}, x.Is c → c < α → ¬ fin α ≤ x := fun hc hlt hle =>
    absurd ((ib.le_iff hc).1 hle) (not_le.2 hlt)
  have mean : 1 < α → (Pareto.mean ⟨fin m, fin α⟩).Is (α * m / (α - 1)) := fun h => by
    have : α - 1 ≠ 0 := by linarith
    unfold Pareto.mean; rw [if_neg (nle Is.one h)]; fev
  refine ⟨fun h => ?_, fun h => ?_, fun h => ?_, fun h => ?_⟩
  · obtain ⟨μ, e, hμ⟩ := h1 h
    rwa [is_uniq (mean h) e]
  · obtain ⟨μ, v, e, e2, hμ⟩ := h2 h
    have n1 : α - 1 ≠ 0 := by linarith
    have n2 : α - 2 ≠ 0 := by linarith
    have e3 : (Pareto.variance ⟨fin m, fin α⟩).Is (m * m * α / (α - 1) / (α - 1) / (α - 2)) := by
      unfold Pareto.variance; rw [if_neg (nle (Is.num 2) h)]; dsimp only; fev
    rwa [is_uniq (mean (by linarith)) e, is_uniq e3 e2]
  · obtain ⟨s, e, hs⟩ := h3 h
    have n3 : α - 3 ≠ 0 := by linarith
    have n2 : 0 ≤ (α - 2) / α := div_nonneg (by linarith) hα.le
    have := returns_uniq (y := 2 * (1 + α) / (α - 3) * √((α - 2) / α)) e
      (by unfold Pareto.skewness; rw [if_neg (nle (Is.num 3) h)]) (by dsimp only; fev)
    rwa [← this]
  · obtain ⟨s, hs, e⟩ := h4 h
    have n3 : α - 3 ≠ 0 := by linarith
    have n4 : α - 4 ≠ 0 := by linarith
    have := returns_uniq (y := 6 * (α * α * α + α * α - 6 * α - 2) / α / (α - 3) / (α - 4)) e
      (by unfold Pareto.excessKurtosis; rw [if_neg (nle (Is.num 4) h)]) (by dsimp only; fev)
    rw [← this, sub_add_cancel]; exact hs

/-- the moments of the inverse gamma law in closed form -/
theorem invGamma_moments_real {α β : ℝ} (hα : 0 < α) (hβ : 0 < β) :
    (1 < α → HasMean (invGammaPDF α β) (β / (α - 1))) ∧
    (2 < α → HasMeanVar (invGammaPDF α β) (β / (α - 1)) (β * β / (α - 1) / (α - 1) / (α - 2))) ∧
    (3 < α → HasSkew (invGammaPDF α β) (4 * √(α - 2) / (α - 3))) ∧
    (4 < α → HasKurt (invGammaPDF α β) ((30 * α - 66) / (α - 3) / (α - 4) + 3)) := by
  have hd : InvGamma.new (fin α) (fin β) = .ok ⟨fin α, fin β⟩ := InvGamma.new_ok.2 ⟨lt_of_pos hα (Is.fin _), lt_of_pos hβ (Is.fin _), rfl⟩
  have ia := Is.fin α
  have ib := Is.fin β
  obtain ⟨-, -, -, -, -, h1, -, h2, -, h3, -, h4, -⟩ := C140_inverse_gamma hd ia ib
  have nle : ∀ {c : ℝ} {x : F64}, x.Is c → c < α → ¬ fin α ≤ x := fun hc hlt hle =>
    absurd ((ia.le_iff hc).1 hle) (not_le.2 hlt)
  have mean : 1 < α → HasMean (invGammaPDF α β) (β / (α - 1)) := fun h => by
    have : α - 1 ≠ 0 := by linarith
    obtain ⟨μ, e, hμ⟩ := h1 h
    have := returns_uniq (y := β / (α - 1)) e (by unfold InvGamma.mean; rw [if_neg (nle Is.one h)]) (by dsimp only; fev)
    rwa [← this]
  refine ⟨mean, fun h => ?_, fun h => ?_, fun h => ?_⟩
  · obtain ⟨μ, v, e, hμ⟩ := h2 h
    have n1 : α - 1 ≠ 0 := by linarith
    have n2 : α - 2 ≠ 0 := by linarith
    have := returns_uniq (y := β * β / (α - 1) / (α - 1) / (α - 2)) e
      (by unfold InvGamma.variance; rw [if_neg (nle (Is.num 2) h)]) (by dsimp only; fev)
    have e1 : μ = β / (α - 1) := hμ.1.2.symm.trans (mean (by linarith)).2
    rwa [← this, ← e1]
  · obtain ⟨s, e, hs⟩ := h3 h
    have n3 : α - 3 ≠ 0 := by linarith
    have n2 : 0 ≤ α - 2 := by linarith
    have := returns_uniq (y := 4 * √(α - 2) / (α - 3)) e
      (by unfold InvGamma.skewness; rw [if_neg (nle (Is.num 3) h)]) (by dsimp only; fev)
    rwa [← this]
  · obtain ⟨s, e, hs⟩ := h4 h
    have n3 : α - 3 ≠ 0 := by linarith
    have n4 : α - 4 ≠ 0 := by linarith
    have := returns_uniq (y := (30 * α - 66) / (α - 3) / (α - 4)) e
      (by unfold InvGamma.excessKurtosis; rw [if_neg (nle (Is.num 4) h)]) (by dsimp only; fev)
    rw [← this, sub_add_cancel]; exact hs

end exactReals

section
variable [FP] [FP.Lawful] [FP.Libm] [FP.Accurate] {a b : F64} {α β s t : ℝ} {j k n : ℕ}

theorem Rel.close (h : Rel a t k n) (hn : n ≤ 64) : RelClose a t (1 / 2 ^ 46) := by
  obtain ⟨-, -, y, hy, he⟩ := h
  refine ⟨y, hy, he.trans ?_⟩
  have hn' : (n:ℝ) ≤ 64 := by exact_mod_cast hn
  have : (n:ℝ) / 2 ^ 52 ≤ 1 / 2 ^ 46 := by rw [div_le_div_iff₀ (by positivity) (by positivity)]; linarith
  gcongr

theorem Rel.ord (ha : a.Is s) (hs : Ordinary s) : Rel a s 60 0 :=
  Rel.exact ha (by rw [abs_of_pos hs.pos]; exact hs.1) (by rw [abs_of_pos hs.pos]; exact hs.2)

/-- small integer literals are exact -/
theorem Rel.num (n : ℕ) [n.AtLeastTwo] (h : n ≤ 128) : Rel (OfNat.ofNat n : F64) (OfNat.ofNat n : ℝ) 7 0 := by
  have e : ((OfNat.ofNat n : ℝ)) = (n:ℝ) := rfl
  have h2 : 2 ≤ n := Nat.AtLeastTwo.prop
  have h1 : (1:ℝ) ≤ n := by exact_mod_cast (by omega : 1 ≤ n)
  refine Rel.exact (Is.num n) ?_ ?_
  · rw [e, abs_of_nonneg (by positivity)]; refine le_trans ?_ h1; norm_num
  · rw [e, abs_of_nonneg (by positivity)]; exact_mod_cast h

theorem Rel.one : Rel (1 : F64) (1 : ℝ) 7 0 := Rel.exact Is.one (by norm_num) (by norm_num)

/-- `x - c` above a threshold `c` -/
theorem Rel.sub_ord {c : F64} {C : ℝ} (ha : a.Is s) (hc : c.Is C) (h : Ordinary (s - C)) : Rel (a - c) (s - C) 60 1 :=
  Rel.sub ha hc (by rw [abs_of_pos h.pos]; exact h.1) (by rw [abs_of_pos h.pos]; exact h.2) (by norm_num)

theorem Rel.pi : Rel PI π 2 1 := by
  have h3 := Real.pi_gt_three; have h4 := Real.pi_le_four
  exact Rel.lit (by rw [abs_of_pos Real.pi_pos]; norm_num; linarith) (by rw [abs_of_pos Real.pi_pos]; norm_num; linarith) (by norm_num)

/-- C254 (exponential law): mean and variance to 64 units of `2^-52`. -/
theorem C254_exponential {d : Exponential} (h : Exponential.new a = .ok d) (ha : a.Is s) (hs : Ordinary s) :
    ∃ m v, HasMeanVar (expPDF s) m v ∧ RelClose d.mean m (1 / 2 ^ 46) ∧ RelClose d.variance v (1 / 2 ^ 46) := by
  obtain ⟨_, rfl⟩ := Exponential.new_ok.1 h
  have r := Rel.ord ha hs
  exact ⟨_, _, (exp_moments hs.pos).1, (Rel.one.div r (by norm_num) (by norm_num)).close (by norm_num),
    (((Rel.one.div r (by norm_num) (by norm_num)).div r (by norm_num) (by norm_num)).congr (by field_simp)).close (by norm_num)⟩

/-- C254 (gamma law): mean, variance, skewness and excess kurtosis. -/
theorem C254_gamma {d : Gamma} (h : Gamma.new a b = .ok d) (ha : a.Is α) (hb : b.Is β) (hα : Ordinary α) (hβ : Ordinary β) :
    (∃ m v, HasMeanVar (ProbabilityTheory.gammaPDFReal α β) m v ∧ RelClose d.mean m (1 / 2 ^ 46) ∧ RelClose d.variance v (1 / 2 ^ 46)) ∧
    (∃ s, HasSkew (ProbabilityTheory.gammaPDFReal α β) s ∧ RelClose d.skewness s (1 / 2 ^ 46)) ∧
    ∃ κ, HasKurt (ProbabilityTheory.gammaPDFReal α β) κ ∧ RelClose d.excessKurtosis (κ - 3) (1 / 2 ^ 46) ∧ RelClose d.kurtosis κ (1 / 2 ^ 46) := by
  obtain ⟨_, _, rfl⟩ := Gamma.new_ok.1 h
  have r := Rel.ord ha hα
  have q := Rel.ord hb hβ
  have α0 := hα.pos
  obtain ⟨m1, m2, m3⟩ := gamma_moments hα.pos hβ.pos
  have e6 := (Rel.num 6 (by norm_num)).div r (by norm_num) (by norm_num)
  refine ⟨⟨_, _, m1, (r.div q (by norm_num) (by norm_num)).close (by norm_num),
    (((r.div q (by norm_num) (by norm_num)).div q (by norm_num) (by norm_num)).congr (by have := hβ.pos; field_simp)).close (by norm_num)⟩,
    ⟨_, m2, ((Rel.num 2 (by norm_num)).div (r.sqrt hα.pos (by norm_num) (by norm_num)) (by norm_num) (by norm_num)).close (by norm_num)⟩,
    ⟨_, m3, (e6.congr (by ring)).close (by norm_num), ?_⟩⟩
  exact ((e6.add ((Rel.num 3 (by norm_num)).mono (by norm_num) (by norm_num)) (by positivity) (by norm_num) (by norm_num) (by norm_num)).congr
    (by ring)).close (by norm_num)

theorem Rel.ofNat {k : ℕ} (hk : 0 < k) (h : k < 2 ^ 64) : Rel (F64.ofNat k) (k : ℝ) 64 1 := by
  have k1 : (1:ℝ) ≤ k := by exact_mod_cast hk
  have k2 : (k:ℝ) ≤ 2 ^ 64 := by exact_mod_cast h.le
  exact Rel.lit (by rw [abs_of_nonneg (by positivity)]; refine le_trans ?_ k1; norm_num) (by rwa [abs_of_nonneg (by positivity)]) (by norm_num)

/-- C254 (Erlang law). -/
theorem C254_erlang {k : ℕ} {d : Erlang} (h : Erlang.new k b = .ok d) (hk : k < 2 ^ 64) (hb : b.Is β) (hβ : Ordinary β) :
    (∃ m v, HasMeanVar (ProbabilityTheory.gammaPDFReal k β) m v ∧ RelClose d.mean m (1 / 2 ^ 46) ∧ RelClose d.variance v (1 / 2 ^ 46)) ∧
    (∃ s, HasSkew (ProbabilityTheory.gammaPDFReal k β) s ∧ RelClose d.skewness s (1 / 2 ^ 46)) ∧
    ∃ κ, HasKurt (ProbabilityTheory.gammaPDFReal k β) κ ∧ RelClose d.excessKurtosis (κ - 3) (1 / 2 ^ 46) := by
  obtain ⟨k0, _, rfl⟩ := Erlang.new_ok.1 h
  have r := Rel.ofNat k0 hk
  have q := Rel.ord hb hβ
  have k1 : (0:ℝ) < k := by exact_mod_cast k0
  obtain ⟨m1, m2, m3⟩ := gamma_moments k1 hβ.pos
  exact ⟨⟨_, _, m1, (r.div q (by norm_num) (by norm_num)).close (by norm_num),
    (((r.div q (by norm_num) (by norm_num)).div q (by norm_num) (by norm_num)).congr (by have := hβ.pos; field_simp)).close (by norm_num)⟩,
    ⟨_, m2, ((Rel.num 2 (by norm_num)).div (r.sqrt k1 (by norm_num) (by norm_num)) (by norm_num) (by norm_num)).close (by norm_num)⟩,
    ⟨_, m3, (((Rel.num 6 (by norm_num)).div r (by norm_num) (by norm_num)).congr (by ring)).close (by norm_num)⟩⟩

/-- C254 (inverse gamma law): each moment above its threshold. -/
theorem C254_inverse_gamma {d : InvGamma} (h : InvGamma.new a b = .ok d) (ha : a.Is α) (hb : b.Is β) (hα : Ordinary α) (hβ : Ordinary β) :
    (Ordinary (α - 1) → ∃ m, HasMean (invGammaPDF α β) m ∧ ReturnsClose d.mean m (1 / 2 ^ 46)) ∧
    (Ordinary (α - 2) → ∃ m v, HasMeanVar (invGammaPDF α β) m v ∧ ReturnsClose d.variance v (1 / 2 ^ 46)) ∧
    (Ordinary (α - 3) → ∃ s, HasSkew (invGammaPDF α β) s ∧ ReturnsClose d.skewness s (1 / 2 ^ 46)) ∧
    (Ordinary (α - 4) → ∃ κ, HasKurt (invGammaPDF α β) κ ∧ ReturnsClose d.excessKurtosis (κ - 3) (1 / 2 ^ 46)) := by
  obtain ⟨_, _, rfl⟩ := InvGamma.new_ok.1 h
  have r := Rel.ord ha hα
  have q := Rel.ord hb hβ
  obtain ⟨m1, m2, m3, m4⟩ := invGamma_moments_real hα.pos hβ.pos
  have nle : ∀ {c : ℝ} {x : F64}, x.Is c → Ordinary (α - c) → ¬ a ≤ x := fun hc hlt hle =>
    absurd ((ha.le_iff hc).1 hle) (not_le.2 (by have := hlt.pos; linarith))
  have up : ∀ {c c' : ℝ}, 0 ≤ c' → c' ≤ c → Ordinary (α - c) → Ordinary (α - c') := fun h0 h1 h2 =>
    ⟨h2.1.trans (by linarith), le_trans (by linarith) hα.2⟩
  refine ⟨fun h => ⟨_, m1 (by have := h.pos; linarith), _, by unfold InvGamma.mean; rw [if_neg (nle Is.one h)], ?_⟩,
    fun h => ⟨_, _, m2 (by have := h.pos; linarith), _, by unfold InvGamma.variance; rw [if_neg (nle (Is.num 2) h)], ?_⟩,
    fun h => ⟨_, m3 (by have := h.pos; linarith), _, by unfold InvGamma.skewness; rw [if_neg (nle (Is.num 3) h)], ?_⟩,
    fun h => ⟨_, m4 (by have := h.pos; linarith), _, by unfold InvGamma.excessKurtosis; rw [if_neg (nle (Is.num 4) h)], ?_⟩⟩
  · exact (q.div (Rel.sub_ord ha Is.one h) (by norm_num) (by norm_num)).close (by norm_num)
  · have w := Rel.sub_ord ha Is.one (up (by norm_num) (by norm_num) h)
    have w2 := Rel.sub_ord ha (Is.num 2) h
    exact (((((q.mul q (by norm_num) (by norm_num)).div w (by norm_num) (by norm_num))).div w (by norm_num) (by norm_num)).div w2 (by norm_num)
      (by norm_num)).close (by norm_num)
  · have h2 := up (c' := 2) (by norm_num) (by norm_num) h
    have w := Rel.sub_ord ha (Is.num 2) h2
    have w2 := Rel.sub_ord ha (Is.num 3) h
    exact (((Rel.num 4 (by norm_num)).mul (w.sqrt h2.pos (by norm_num) (by norm_num)) (by norm_num) (by norm_num)).div w2 (by norm_num)
      (by norm_num)).close (by norm_num)
  · have h3 := up (c' := 3) (by norm_num) (by norm_num) h
    have w3 := Rel.sub_ord ha (Is.num 3) h3
    have w4 := Rel.sub_ord ha (Is.num 4) h
    have α4 := h.pos
    have u := ((Rel.num 30 (by norm_num)).mul r (by norm_num) (by norm_num))
    have v : Rel (30 * a - 66) (30 * α - 66) 67 _ := Rel.sub_amp 4 u ((Rel.num 66 (by norm_num)).mono (by norm_num) (by norm_num))
      (by rw [abs_of_pos (by linarith)]; refine le_trans (b := 1) ?_ (by linarith); rw [div_le_one (by positivity)]; exact one_le_pow₀ (by norm_num))
      (by rw [abs_of_pos (by linarith)]; have := hα.2; have : (2:ℝ) ^ 67 = 128 * 2 ^ 60 := by norm_num
          linarith)
      (by rw [abs_of_pos (by linarith), abs_of_pos (by norm_num), abs_of_pos (by linarith)]; push_cast; linarith) (by norm_num) (by norm_num)
    rw [add_sub_cancel_right]
    exact ((v.div w3 (by norm_num) (by norm_num)).div w4 (by norm_num) (by norm_num)).close (by norm_num)

/-- C254 (Pareto law): each moment above its threshold. -/
theorem C254_pareto {d : Pareto} (h : Pareto.new a b = .ok d) (ha : a.Is s) (hb : b.Is α) (hs : Ordinary s) (hα : Ordinary α) :
    (Ordinary (α - 1) → ∃ m, HasMean (Spec.paretoPDF s α) m ∧ RelClose d.mean m (1 / 2 ^ 46)) ∧
    (Ordinary (α - 2) → ∃ m v, HasMeanVar (Spec.paretoPDF s α) m v ∧ RelClose d.variance v (1 / 2 ^ 46)) ∧
    (Ordinary (α - 3) → ∃ κ, HasSkew (Spec.paretoPDF s α) κ ∧ ReturnsClose d.skewness κ (1 / 2 ^ 46)) ∧
    (Ordinary (α - 4) → ∃ κ, HasKurt (Spec.paretoPDF s α) κ ∧ ReturnsClose d.excessKurtosis (κ - 3) (1 / 2 ^ 46)) := by
  obtain ⟨_, rfl⟩ := Pareto.new_ok.1 h
  have r := Rel.ord hb hα
  have q := Rel.ord ha hs
  have α0 := hα.pos
  obtain ⟨m1, m2, m3, m4⟩ := pareto_moments_real hs.pos hα.pos
  have nle : ∀ {c : ℝ} {x : F64}, x.Is c → Ordinary (α - c) → ¬ b ≤ x := fun hc hlt hle =>
    absurd ((hb.le_iff hc).1 hle) (not_le.2 (by have := hlt.pos; linarith))
  have up : ∀ {c c' : ℝ}, 0 ≤ c' → c' ≤ c → Ordinary (α - c) → Ordinary (α - c') := fun h0 h1 h2 =>
    ⟨h2.1.trans (by linarith), le_trans (by linarith) hα.2⟩
  refine ⟨fun h => ⟨_, m1 (by have := h.pos; linarith), ?_⟩,
    fun h => ⟨_, _, m2 (by have := h.pos; linarith), ?_⟩,
    fun h => ⟨_, m3 (by have := h.pos; linarith), _, by unfold Pareto.skewness; rw [if_neg (nle (Is.num 3) h)], ?_⟩,
    fun h => ⟨_, m4 (by have := h.pos; linarith), _, by unfold Pareto.excessKurtosis; rw [if_neg (nle (Is.num 4) h)], ?_⟩⟩
  · unfold Pareto.mean
    rw [if_neg (nle Is.one h)]
    exact ((r.mul q (by norm_num) (by norm_num)).div (Rel.sub_ord hb Is.one h) (by norm_num) (by norm_num)).close (by norm_num)
  · unfold Pareto.variance
    rw [if_neg (nle (Is.num 2) h)]
    have w := Rel.sub_ord hb Is.one (up (by norm_num) (by norm_num) h)
    have w2 := Rel.sub_ord hb (Is.num 2) h
    exact (((((q.mul q (by norm_num) (by norm_num)).mul r (by norm_num) (by norm_num)).div w (by norm_num) (by norm_num)).div w
      (by norm_num) (by norm_num)).div w2 (by norm_num) (by norm_num)).close (by norm_num)
  · have h2 := up (c' := 2) (by norm_num) (by norm_num) h
    have w := Rel.sub_ord hb (Is.num 2) h2
    have w2 := Rel.sub_ord hb (Is.num 3) h
    have v := (Rel.one.mono (k' := 60) (by norm_num) le_rfl).add r (by norm_num) α0 (by norm_num) (by norm_num)
    exact ((((Rel.num 2 (by norm_num)).mul v (by norm_num) (by norm_num)).div w2 (by norm_num) (by norm_num)).mul
      ((w.div r (by norm_num) (by norm_num)).sqrt (div_pos h2.pos α0) (by norm_num) (by norm_num)) (by norm_num) (by norm_num)).close (by norm_num)
  · have h3 := up (c' := 3) (by norm_num) (by norm_num) h
    have w3 := Rel.sub_ord hb (Is.num 3) h3
    have w4 := Rel.sub_ord hb (Is.num 4) h
    have α4 := h.pos
    have a2 := r.mul r (by norm_num) (by norm_num)
    have a3 := a2.mul r (by norm_num) (by norm_num)
    have s1 := a3.add (a2.mono (by norm_num) (by norm_num)) (by positivity) (by positivity) (by norm_num) (by norm_num)
    have p60 := hα.2
    have b2 : α * α ≤ 2 ^ 60 * 2 ^ 60 := by gcongr
    have b3 : α * α * α ≤ 2 ^ 60 * 2 ^ 60 * 2 ^ 60 := by gcongr
    have lo : 4 * (α * α) ≤ α * α * α := by nlinarith
    have lo2 : 4 * α ≤ α * α := by nlinarith
    have s2 := Rel.sub_amp (k := 181) (r := 2) s1
      (((Rel.num 6 (by norm_num)).mul r (by norm_num) (by norm_num)).mono (k' := 60 + 60 + 60 + 1) (n' := 0 + 0 + 1 + 0 + 1 + 1) (by norm_num) (by norm_num))
      (by rw [abs_of_pos (by nlinarith)]; refine le_trans (b := 1) ?_ (by nlinarith); rw [div_le_one (by positivity)]; exact one_le_pow₀ (by norm_num))
      (by rw [abs_of_pos (by nlinarith)]
          have : (2:ℝ) ^ 181 = 2 * (2 ^ 60 * 2 ^ 60 * 2 ^ 60) := by norm_num
          have : (2:ℝ) ^ 60 * 2 ^ 60 ≤ (2 ^ 60 * 2 ^ 60 * 2 ^ 60) := by norm_num
          linarith)
      (by rw [abs_of_pos (by positivity), abs_of_pos (by positivity), abs_of_pos (by nlinarith)]; push_cast; nlinarith) (by norm_num) (by norm_num)
    have s3 := Rel.sub_amp (k := 181) (r := 2) s2
      ((Rel.num 2 (by norm_num)).mono (k' := 181) (n' := 7) (by norm_num) (by norm_num))
      (by rw [abs_of_pos (by nlinarith)]; refine le_trans (b := 1) ?_ (by nlinarith); rw [div_le_one (by positivity)]; exact one_le_pow₀ (by norm_num))
      (by rw [abs_of_pos (by nlinarith)]
          have : (2:ℝ) ^ 181 = 2 * (2 ^ 60 * 2 ^ 60 * 2 ^ 60) := by norm_num
          have : (2:ℝ) ^ 60 * 2 ^ 60 ≤ (2 ^ 60 * 2 ^ 60 * 2 ^ 60) := by norm_num
          linarith)
      (by rw [abs_of_pos (by nlinarith), abs_of_pos (by norm_num), abs_of_pos (by nlinarith)]; push_cast; nlinarith) (by norm_num) (by norm_num)
    rw [add_sub_cancel_right]
    exact (((((Rel.num 6 (by norm_num)).mul s3 (by norm_num) (by norm_num)).div r (by norm_num) (by norm_num)).div w3 (by norm_num) (by norm_num)).div w4
      (by norm_num) (by norm_num)).close (by norm_num)

theorem Rel.pi2 : Rel PI2 (π * π) 4 3 := Rel.pi.mul Rel.pi (by norm_num) (by norm_num)

/-- C254 (location-scale families): the variances. The means are stored parameters. -/
theorem C254_location_scale (hb : b.Is s) (hs : Ordinary s) (μ : ℝ) (ha : a.Is μ) :
    (∀ d, Logistic.new a b = .ok d → ∃ v, HasMeanVar (logisticPDF μ s) μ v ∧ d.mean.Is μ ∧ RelClose d.variance v (1 / 2 ^ 46)) ∧
    (∀ d, Gumbel.new a b = .ok d → ∃ m v, HasMeanVar (gumbelPDF μ s) m v ∧ RelClose d.variance v (1 / 2 ^ 46)) ∧
    (∀ d, Laplace.new a b = .ok d → ∃ v, HasMeanVar (laplacePDF μ s) μ v ∧ d.mean.Is μ ∧ RelClose d.variance v (1 / 2 ^ 46)) ∧
    (∀ d, UniformF.new a b = .ok d → ∃ m v, HasMeanVar (uniformPDF μ (μ + s)) m v ∧ RelClose d.variance v (1 / 2 ^ 46)) ∧
    (∀ d, Arcsine.new a b = .ok d → ∃ m v, HasMeanVar (arcsinePDF μ (μ + s)) m v ∧ RelClose d.variance v (1 / 2 ^ 46)) ∧
    (∀ d, Cosine.new a b = .ok d → ∃ v, HasMeanVar (cosinePDF μ s) μ v ∧ d.mean.Is μ ∧ RelClose d.variance v (1 / 2 ^ 46)) := by
  have r := Rel.ord hb hs
  have s0 := hs.pos
  have rr := r.mul r (by norm_num) (by norm_num)
  refine ⟨fun d h => ?_, fun d h => ?_, fun d h => ?_, fun d h => ?_, fun d h => ?_, fun d h => ?_⟩
  · obtain ⟨_, rfl⟩ := Logistic.new_ok.1 h
    refine ⟨_, (logistic_moments μ s0).1, ha, ?_⟩
    exact (((rr.mul Rel.pi2 (by norm_num) (by norm_num)).div (Rel.num 3 (by norm_num)) (by norm_num) (by norm_num)).congr (by ring)).close (by norm_num)
  · obtain ⟨_, rfl⟩ := Gumbel.new_ok.1 h
    refine ⟨_, _, (gumbel_moments μ s0).1, ?_⟩
    exact ((((Rel.pi2.mul r (by norm_num) (by norm_num)).mul r (by norm_num) (by norm_num)).div (Rel.num 6 (by norm_num)) (by norm_num)
      (by norm_num)).congr (by ring)).close (by norm_num)
  · obtain ⟨_, rfl⟩ := Laplace.new_ok.1 h
    refine ⟨_, (laplace_moments μ s0).1, ha, ?_⟩
    exact ((((Rel.num 2 (by norm_num)).mul r (by norm_num) (by norm_num)).mul r (by norm_num) (by norm_num)).congr (by ring)).close (by norm_num)
  · obtain ⟨_, rfl⟩ := UniformF.new_ok.1 h
    refine ⟨_, _, (uniform_moments μ s0).1, ?_⟩
    exact ((rr.div (Rel.num 12 (by norm_num)) (by norm_num) (by norm_num)).congr (by ring)).close (by norm_num)
  · obtain ⟨_, rfl⟩ := Arcsine.new_ok.1 h
    refine ⟨_, _, (arcsine_moments (a := μ) (b := μ + s) (by linarith)).1, ?_⟩
    exact ((rr.div (Rel.num 8 (by norm_num)) (by norm_num) (by norm_num)).congr (by ring)).close (by norm_num)
  · obtain ⟨_, rfl⟩ := Cosine.new_ok.1 h
    refine ⟨_, (cosine_moments μ s0).2.1, ha, ?_⟩
    have third : Rel ONE_THIRD (1 / 3) 14 1 := Rel.one.div (Rel.num 3 (by norm_num)) (by norm_num) (by norm_num)
    have two : Rel TWO_OVER_PI2 (2 / (π * π)) 11 4 := (Rel.num 2 (by norm_num)).div Rel.pi2 (by norm_num) (by norm_num)
    have p1 := Real.pi_gt_d2
    have p2 := Real.pi_lt_d2
    have pp1 : 9.85 ≤ π * π := by nlinarith
    have t1 : 2 / (π * π) ≤ 2031 / 10000 := by rw [div_le_iff₀ (by positivity)]; nlinarith
    have t0 : 0 < 2 / (π * π) := by positivity
    have w := Rel.sub_amp (k := 14) (r := 5) (third.mono (n' := 4) (k' := 14) le_rfl (by norm_num)) (two.mono (k' := 14) (by norm_num) le_rfl)
      (by rw [abs_of_pos (by linarith)]; refine le_trans (b := 1 / 10) (by norm_num) ?_; linarith)
      (by rw [abs_of_pos (by linarith)]; refine le_trans (b := 1) ?_ (by norm_num); linarith)
      (by rw [abs_of_pos (by norm_num), abs_of_pos t0, abs_of_pos (by linarith)]; push_cast; linarith) (by norm_num) (by norm_num)
    exact ((rr.mul w (by norm_num) (by norm_num)).congr (by ring)).close (by norm_num)

/-- C254 (Rayleigh law): mean and variance. -/
theorem C254_rayleigh {d : Rayleigh} (h : Rayleigh.new b = .ok d) (hb : b.Is s) (hs : Ordinary s) :
    ∃ m v, HasMeanVar (rayleighPDF s) m v ∧ RelClose d.mean m (1 / 2 ^ 46) ∧ RelClose d.variance v (1 / 2 ^ 46) := by
  obtain ⟨_, rfl⟩ := Rayleigh.new_ok.1 h
  have r := Rel.ord hb hs
  have s0 := hs.pos
  refine ⟨_, _, (rayleigh_moments s0).1, ?_, ?_⟩
  · exact (r.mul ((Rel.pi.div (Rel.num 2 (by norm_num)) (by norm_num) (by norm_num)).sqrt (by positivity) (by norm_num) (by norm_num)) (by norm_num)
      (by norm_num)).close (by norm_num)
  · have p1 := Real.pi_gt_d2
    have p2 := Real.pi_lt_d2
    have w : Rel Rayleigh.FOUR_MINUS_PI (4 - π) 7 _ := Rel.sub_amp (k := 7) (r := 9) ((Rel.num 4 (by norm_num)).mono (n' := 1) le_rfl (by norm_num))
      (Rel.pi.mono (k' := 7) (by norm_num) le_rfl)
      (by rw [abs_of_pos (by linarith)]; norm_num at p2 ⊢; linarith)
      (by rw [abs_of_pos (by linarith)]; norm_num at p1 ⊢; linarith)
      (by rw [abs_of_pos (by norm_num), abs_of_pos (by linarith), abs_of_pos (by linarith)]; push_cast; norm_num at p2 ⊢; linarith) (by norm_num) (by norm_num)
    exact ((((w.div (Rel.num 2 (by norm_num)) (by norm_num) (by norm_num)).mul r (by norm_num) (by norm_num)).mul r (by norm_num) (by norm_num)).congr
      (by ring)).close (by norm_num)

/-- C254 (inverse Gaussian law): mean, variance and skewness. -/
theorem C254_inverse_normal {d : InvNormal} (h : InvNormal.new a b = .ok d) (ha : a.Is α) (hb : b.Is β) (hα : Ordinary α) (hβ : Ordinary β) :
    (∃ m v, HasMeanVar (invNormalPDF α β) m v ∧ d.mean.Is m ∧ RelClose d.variance v (1 / 2 ^ 46)) ∧
    ∃ κ, HasSkew (invNormalPDF α β) κ ∧ RelClose d.skewness κ (1 / 2 ^ 46) := by
  obtain ⟨_, _, rfl⟩ := InvNormal.new_ok.1 h
  have r := Rel.ord ha hα
  have q := Rel.ord hb hβ
  obtain ⟨m1, m2, -⟩ := invNormal_moments hα.pos hβ.pos
  exact ⟨⟨_, _, m1, ha, ((((r.mul r (by norm_num) (by norm_num)).mul r (by norm_num) (by norm_num)).div q (by norm_num) (by norm_num)).congr
    (by ring)).close (by norm_num)⟩, ⟨_, m2, ((Rel.num 3 (by norm_num)).mul ((r.div q (by norm_num) (by norm_num)).sqrt (div_pos hα.pos hβ.pos)
    (by norm_num) (by norm_num)) (by norm_num) (by norm_num)).close (by norm_num)⟩⟩

end
end Rstat
