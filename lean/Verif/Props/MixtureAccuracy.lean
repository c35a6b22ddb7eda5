import Verif.Props.MixtureFloat
import Verif.Props.FloatDiscrete
import Verif.Props.FloatConv
import Verif.Props.FloatFit
import Verif.Props.FloatDensity2
import Verif.Props.FloatAccuracy3

/-! C271: mixtures in floating point inherit the accuracy of their components. -/
set_option linter.unusedSectionVars false
namespace Rstat
open F64 Spec

/-- the weighted sum `Σ wᵢ g(cᵢ)` over the components of a mixture, in the reals -/
noncomputable def Spec.weighted {C : Type} (ws : List F64) (cs : List C) (g : C → ℝ) : ℝ := ((cs.zip ws).map fun cp => cp.2.toReal * g cp.1).sum

theorem sum_close {X : Type} (l : List X) (α β u : X → ℝ) (e η : ℝ) (h : ∀ x ∈ l, |α x - β x| ≤ u x * e + η) :
    |(l.map α).sum - (l.map β).sum| ≤ (l.map u).sum * e + l.length * η := by
  induction l with
  | nil => simp
  | cons x l ih =>
    simp only [List.map_cons, List.sum_cons, List.length_cons]
    have h1 := h x (by simp)
    have h2 := ih fun y hy => h y (by simp [hy])
    have h3 := abs_add_le (α x - β x) ((l.map α).sum - (l.map β).sum)
    rw [show α x + (l.map α).sum - (β x + (l.map β).sum) = α x - β x + ((l.map α).sum - (l.map β).sum) by ring]
    push_cast
    linarith

section
variable [FP] [FP.Lawful]

/-- a weighted floating-point sum of inexact terms -/
theorem weighted_within {C : Type} {ws : List F64} {cs : List C} {f : C → F64} {g : C → ℝ} {ε M : ℝ}
    (hw : ∀ cp ∈ cs.zip ws, ∃ u, cp.2.Is u ∧ 0 ≤ u ∧ u ≤ 1) (hW : ((cs.zip ws).map fun cp => cp.2.toReal).sum ≤ 21 / 20)
    (hn : (cs.zip ws).length ≤ 2 ^ 30) (hf : ∀ c ∈ cs, Within (f c) (g c) ε ∧ |g c| ≤ M) (e0 : 0 ≤ ε) (e1 : ε ≤ M)
    (m0 : 1 / 2 ^ 900 ≤ M) (m1 : M ≤ 2 ^ 800) :
    Within ((cs.zip ws).foldl (fun a cp => a + cp.2 * f cp.1) 0) (weighted ws cs g) (11 / 10 * ε + ((cs.zip ws).length + 1) * (M / 2 ^ 50)) := by
  have M0 : 0 < M := lt_of_lt_of_le (by positivity) m0
  have hη : (1:ℝ) / 2 ^ 1075 ≤ M / 2 ^ 100 := by
    calc (1:ℝ) / 2 ^ 1075 ≤ 1 / 2 ^ 900 / 2 ^ 100 := by
          rw [div_div, ← pow_add]; exact one_div_le_one_div_of_le (by positivity) (pow_le_pow_right₀ (by norm_num) (by norm_num))
      _ ≤ _ := by gcongr
  have η0 : (0:ℝ) ≤ 1 / 2 ^ 1075 := by positivity
  set φ : C × F64 → ℝ := fun cp => (cp.2 * f cp.1).toReal with hφ
  have term : ∀ cp ∈ cs.zip ws, (cp.2 * f cp.1).Is (φ cp) ∧ |φ cp - cp.2.toReal * g cp.1| ≤ cp.2.toReal * (ε + 2 * M / 2 ^ 53) + 1 / 2 ^ 1075 ∧
      |φ cp| ≤ cp.2.toReal * (9 / 4 * M) + 1 / 2 ^ 1075 := by
    intro cp hcp
    obtain ⟨u, hu, u0, u1⟩ := hw cp hcp
    obtain ⟨⟨y, hy, he⟩, hg⟩ := hf cp.1 (List.of_mem_zip hcp).1
    have y2 : |y| ≤ 2 * M := by
      have := abs_add_le (y - g cp.1) (g cp.1)
      rw [sub_add_cancel] at this; linarith
    have uy : |u * y| ≤ u * (2 * M) := by rw [abs_mul, abs_of_nonneg u0]; exact mul_le_mul_of_nonneg_left y2 u0
    have er := FP.Lawful.rnd_err (u * y)
    have m1' := m1
    generalize (1:ℝ) / 2 ^ 1075 = η at er hη η0 ⊢
    have er2 : |FP.rnd (u * y) - u * y| ≤ u * (2 * M / 2 ^ 53) + η := by
      refine er.trans ?_
      have : |u * y| / 2 ^ 53 ≤ u * (2 * M) / 2 ^ 53 := by gcongr
      rw [← mul_div_assoc]; linarith
    have um : u * (2 * M / 2 ^ 53) ≤ u * (M / 4) := by
      refine mul_le_mul_of_nonneg_left ?_ u0
      rw [div_le_div_iff₀ (by positivity) (by norm_num)]; nlinarith
    have sz : |FP.rnd (u * y)| ≤ u * (9 / 4 * M) + η := by
      have := abs_add_le (FP.rnd (u * y) - u * y) (u * y)
      rw [sub_add_cancel] at this
      linarith
    have is := mul_is hu hy (nh_1000 (by
      calc |u * y| ≤ u * (2 * M) := uy
        _ ≤ 1 * (2 * M) := by gcongr
        _ ≤ 1 * (2 * 2 ^ 800) := by gcongr
        _ = 2 * 2 ^ 800 := one_mul _
        _ = 2 ^ 801 := (pow_succ' 2 800).symm
        _ ≤ 2 ^ 1000 := pow_le_pow_right₀ (by norm_num) (by norm_num)))
    have ev : φ cp = FP.rnd (u * y) := is.toReal_eq
    rw [ev, hu.toReal_eq]
    refine ⟨is, ?_, sz⟩
    have := abs_add_le (FP.rnd (u * y) - u * y) (u * y - u * g cp.1)
    rw [sub_add_sub_cancel] at this
    have k : |u * y - u * g cp.1| ≤ u * ε := by
      rw [← mul_sub, abs_mul, abs_of_nonneg u0]; exact mul_le_mul_of_nonneg_left he u0
    linarith
  set n := (cs.zip ws).length with hnd
  set W := ((cs.zip ws).map fun cp => cp.2.toReal).sum with hWd
  have W0 : 0 ≤ W := by
    refine List.sum_nonneg fun x hx => ?_
    obtain ⟨cp, hcp, rfl⟩ := List.mem_map.1 hx
    obtain ⟨u, hu, u0, -⟩ := hw cp hcp
    rw [hu.toReal_eq]; exact u0
  have nr : (n : ℝ) ≤ 2 ^ 30 := by exact_mod_cast hn
  have n0 : (0:ℝ) ≤ n := Nat.cast_nonneg _
  have nη : (n:ℝ) * (1 / 2 ^ 1075) ≤ M / 2 ^ 70 := by
    calc (n:ℝ) * (1 / 2 ^ 1075) ≤ 2 ^ 30 * (M / 2 ^ 100) := mul_le_mul nr hη η0 (by positivity)
      _ = M / 2 ^ 70 := by rw [show (2:ℝ) ^ 100 = 2 ^ 30 * 2 ^ 70 by norm_num]; field_simp
  have tot := sum_close (cs.zip ws) (fun cp => |φ cp|) (fun _ => 0) (fun cp => cp.2.toReal) (9 / 4 * M) (1 / 2 ^ 1075)
    (fun cp hcp => by rw [sub_zero, abs_abs]; exact (term cp hcp).2.2)
  have err := sum_close (cs.zip ws) φ (fun cp => cp.2.toReal * g cp.1) (fun cp => cp.2.toReal) (ε + 2 * M / 2 ^ 53) (1 / 2 ^ 1075)
    (fun cp hcp => (term cp hcp).2.1)
  rw [show ((cs.zip ws).map fun _ => (0:ℝ)).sum = 0 by simp, sub_zero] at tot
  have A : ((cs.zip ws).map fun cp => |φ cp|).sum ≤ 5 / 2 * M := by
    refine (le_abs_self _).trans (tot.trans ?_)
    have k1 : W * (9 / 4 * M) ≤ 21 / 20 * (9 / 4 * M) := by gcongr
    have k2 : M / 2 ^ 70 ≤ M / 100 := by gcongr; norm_num
    change W * (9 / 4 * M) + n * (1 / 2 ^ 1075) ≤ _
    linarith only [k1, k2, nη, M0]
  obtain ⟨y, y1, y2⟩ := fsum_abs (fun cp : C × F64 => cp.2 * f cp.1) φ (n := n) (A := 5 / 2 * M) (hn.trans (by norm_num)) (by positivity)
    (by
      calc 5 / 2 * M ≤ 4 * M := by linarith only [M0]
        _ ≤ 4 * 2 ^ 800 := by gcongr
        _ = 2 ^ 2 * 2 ^ 800 := by congr 1; norm_num
        _ = 2 ^ 802 := (pow_add 2 2 800).symm
        _ ≤ 2 ^ 900 := pow_le_pow_right₀ (by norm_num) (by norm_num)) (cs.zip ws) 0 0 0 0 (by simp [hnd]) (fun cp hcp => (term cp hcp).1) Is.zero (by rw [abs_zero, zero_add]; exact A) (by simp)
  refine ⟨y, y1, ?_⟩
  rw [zero_add, zero_add] at y2
  have := abs_add_le (y - ((cs.zip ws).map φ).sum) (((cs.zip ws).map φ).sum - weighted ws cs g)
  rw [sub_add_sub_cancel] at this
  have e3 : W * (ε + 2 * M / 2 ^ 53) ≤ 21 / 20 * (ε + 2 * M / 2 ^ 53) := by gcongr
  have e4 : (n:ℝ) * (5 / 2 * M / 2 ^ 52 + 2 * (1 / 2 ^ 1075)) = n * (M / 2 ^ 50) * (5 / 8) + 2 * (n * (1 / 2 ^ 1075)) := by ring
  have e5 : M / 2 ^ 70 ≤ M / 2 ^ 50 / 100 := by rw [div_div]; gcongr; norm_num
  have e6 : 2 * M / 2 ^ 53 = M / 2 ^ 50 / 4 := by rw [div_div, show (2:ℝ) ^ 53 = 2 ^ 50 * 4 * 2 by norm_num]; field_simp
  have e7 : 0 ≤ n * (M / 2 ^ 50) := by positivity
  have err' : |((cs.zip ws).map φ).sum - weighted ws cs g| ≤ W * (ε + 2 * M / 2 ^ 53) + n * (1 / 2 ^ 1075) := err
  rw [e4] at y2
  clear tot err m0 m1 hη
  generalize (n:ℝ) * (1 / 2 ^ 1075) = N at *
  have e8 : 0 ≤ M / 2 ^ 50 := by positivity
  rw [add_mul, one_mul]
  linarith

variable {C S P X σ : Type} [Support S] {D : Comp C S P X σ} {ws : List F64} {cs : List C} {m : Mixture C S}

/-- the weights of an accepted mixture of at most 2^30 components sum to at most 1 + 1/20 -/
theorem mixture_total (h : Mixture.new D ws cs = .ok (.ok m)) (hn : ws.length ≤ 2 ^ 30) :
    ((cs.zip ws).map fun cp => cp.2.toReal).sum ≤ 21 / 20 := by
  obtain ⟨hl, -, hw, hc⟩ := Mixture.new_ok D ws cs m h
  obtain ⟨h1, h2, h3⟩ := (C05_simplex_new_iff ws m.weights).1 hw
  have e : ((cs.zip ws).map fun cp => cp.2.toReal) = ws.map toReal := by
    have := congrArg (List.map toReal) (List.map_snd_zip (l₁ := cs) (l₂ := ws) (by omega))
    rw [List.map_map] at this
    exact this
  rw [e]
  obtain ⟨y, y1, -, y3, y4, y5⟩ := foldl_unit ws 0 0 0 (fun p hp => (unit_iff p).2 (h2 p hp)) Is.zero rnd_zero le_rfl (by simp) (by omega)
  have hnr : (ws.length : ℝ) ≤ 2 ^ 30 := by exact_mod_cast hn
  have ct := cat_total (d := ⟨m.weights⟩) (Categorical.new_ok.2 hw) y1 (by rw [Nat.cast_zero, zero_add] at y4; exact y4.trans (hnr.trans (by norm_num))) y3
  obtain ⟨c1, c2⟩ := abs_le.1 ct
  have y6 := (abs_le.1 (y5 (by linarith))).1
  rw [zero_add] at y6
  have : (ws.length:ℝ) * (1 / 2 ^ 51) ≤ 2 ^ 30 * (1 / 2 ^ 51) := by gcongr
  norm_num at this
  linarith

/-- C271: the value returned by a mixture's `cdf`, `pdf` and `mean` is the weighted sum of the real values of the components up to 11/10 of the
error of the worst component plus one part in 2^50 for every component (and one more) of the largest value -/
theorem C271_mixture (h : Mixture.new D ws cs = .ok (.ok m)) (hn : ws.length ≤ 2 ^ 30) {g : C → ℝ} {ε M : ℝ} (e0 : 0 ≤ ε) (e1 : ε ≤ M)
    (m0 : 1 / 2 ^ 900 ≤ M) (m1 : M ≤ 2 ^ 800) (hg : ∀ c ∈ cs, |g c| ≤ M) :
    (∀ x, (∀ c ∈ cs, Within (D.cdf c x).val (g c) ε) → Within (m.cdf D x).val (weighted ws cs g) (11 / 10 * ε + (ws.length + 1) * (M / 2 ^ 50))) ∧
    (∀ x, (∀ c ∈ cs, Within (D.pdf c x) (g c) ε) → Within (m.pdf D x) (weighted ws cs g) (11 / 10 * ε + (ws.length + 1) * (M / 2 ^ 50))) ∧
    ((∀ c ∈ cs, Within (D.mean c) (g c) ε) → Within (m.mean D) (weighted ws cs g) (11 / 10 * ε + (ws.length + 1) * (M / 2 ^ 50))) := by
  obtain ⟨hl, -⟩ := Mixture.new_ok D ws cs m h
  obtain ⟨hz, hp⟩ := mixture_parts h
  have hlen : (cs.zip ws).length = ws.length := by rw [List.length_zip]; omega
  have key : ∀ f : C → F64, (∀ c ∈ cs, Within (f c) (g c) ε) →
      Within ((cs.zip ws).foldl (fun a cp => a + cp.2 * f cp.1) 0) (weighted ws cs g) (11 / 10 * ε + (ws.length + 1) * (M / 2 ^ 50)) := fun f hf => by
    have := weighted_within (fun cp hcp => (hp cp hcp).2) (mixture_total h hn) (by rw [hlen]; exact hn) (fun c hc => ⟨hf c hc, hg c hc⟩) e0 e1 m0 m1
    rwa [hlen] at this
  refine ⟨fun x hx => ?_, fun x hx => ?_, fun hx => ?_⟩
  · have := key (fun c => (D.cdf c x).val) hx
    rw [← List.foldl_map (f := fun cp : C × F64 => cp.2 * (D.cdf cp.1 x).val) (g := (· + ·))] at this
    unfold Mixture.cdf; rw [hz]; exact this
  · have := key (fun c => D.pdf c x) hx
    rw [← List.foldl_map (f := fun cp : C × F64 => cp.2 * D.pdf cp.1 x) (g := (· + ·))] at this
    unfold Mixture.pdf; rw [hz]; exact this
  · unfold Mixture.mean; rw [hz]; exact key D.mean hx

/-- C271: the variance of a mixture of at most 2^30 components with means within `L` and variances within `L²` is computed up to
`(n + 2) L² 2^-47`, absolutely: it is the difference of two numbers as large as `L²` -/
theorem C271_variance_partial (h : Mixture.new D ws cs = .ok (.ok m)) (hn : ws.length ≤ 2 ^ 30) {μ v : C → ℝ} {L : ℝ} (l0 : 1 ≤ L) (l1 : L ≤ 2 ^ 90)
    (hμ : ∀ c ∈ cs, (D.mean c).Is (μ c) ∧ |μ c| ≤ L) (hv : ∀ c ∈ cs, (D.variance c).Is (v c) ∧ |v c| ≤ L ^ 2) :
    Within (m.variance D) (weighted ws cs (fun c => μ c ^ 2 + v c) - weighted ws cs μ ^ 2) ((ws.length + 2) * (L ^ 2 / 2 ^ 47)) := by
  obtain ⟨hl, -⟩ := Mixture.new_ok D ws cs m h
  obtain ⟨hz, hp⟩ := mixture_parts h
  have hlen : (cs.zip ws).length = ws.length := by rw [List.length_zip]; omega
  have hn' : (cs.zip ws).length ≤ 2 ^ 30 := by omega
  have hW := mixture_total h hn
  have q1 : 1 ≤ L ^ 2 := one_le_pow₀ l0
  have q2 : L ^ 2 ≤ 2 ^ 180 := by
    calc L ^ 2 ≤ (2 ^ 90) ^ 2 := by gcongr
      _ = 2 ^ 180 := by norm_num
  have lq : L ≤ L ^ 2 := by nlinarith
  have big : ∀ {y : ℝ}, 1 ≤ y → (1:ℝ) / 2 ^ 900 ≤ y := fun hy => (by
    rw [div_le_one (by positivity)]; exact one_le_pow₀ (by norm_num) : (1:ℝ) / 2 ^ 900 ≤ 1).trans hy
  have top : (2:ℝ) ^ 200 ≤ 2 ^ 800 := pow_le_pow_right₀ (by norm_num) (by norm_num)
  have hN : ((cs.zip ws).length : ℝ) = ws.length := by rw [hlen]
  have nr : (ws.length : ℝ) ≤ 2 ^ 30 := by exact_mod_cast hn
  have n0 : (0:ℝ) ≤ ws.length := Nat.cast_nonneg _
  have W1 := weighted_within (f := D.mean) (g := μ) (ε := 0) (M := L) (fun cp hcp => (hp cp hcp).2) hW hn'
    (fun c hc => ⟨Within.exact (hμ c hc).1, (hμ c hc).2⟩) le_rfl (by linarith) (big l0)
    (l1.trans ((pow_le_pow_right₀ (by norm_num) (by norm_num) : (2:ℝ) ^ 90 ≤ 2 ^ 200).trans top))
  have W2 := weighted_within (f := fun c => D.mean c * D.mean c + D.variance c) (g := fun c => μ c ^ 2 + v c) (ε := L ^ 2 / 2 ^ 50) (M := 2 * L ^ 2)
    (fun cp hcp => (hp cp hcp).2) hW hn'
    (fun c hc => by
      obtain ⟨m1, m2⟩ := hμ c hc
      obtain ⟨v1, v2⟩ := hv c hc
      have sq : |μ c ^ 2| ≤ L ^ 2 := by rw [abs_pow]; gcongr
      refine ⟨?_, (abs_add_le _ _).trans (by linarith)⟩
      have k1 := Within.mul (ρ := L ^ 2 / 2 ^ 52) L L (Within.exact m1) (Within.exact m1) m2 m2 (by norm_num; nlinarith) (by norm_num at q2 ⊢; nlinarith)
      rw [← pow_two] at k1
      exact Within.add (2 * L ^ 2) k1 (Within.exact v1) ((abs_add_le _ _).trans (by linarith)) (by norm_num; linarith) (by norm_num at q2 ⊢; linarith))
    (by positivity) (by have : L ^ 2 / 2 ^ 50 ≤ L ^ 2 := div_le_self (by linarith) (by norm_num); linarith) (big (by linarith))
    (by refine le_trans ?_ top; norm_num at q2 ⊢; linarith)
  rw [hN] at W1 W2
  have S1 : |weighted ws cs μ| ≤ 21 / 20 * L := by
    have := sum_close (cs.zip ws) (fun cp => cp.2.toReal * μ cp.1) (fun _ => 0) (fun cp => cp.2.toReal) L 0 (fun cp hcp => by
      obtain ⟨u, hu, u0, -⟩ := (hp cp hcp).2
      rw [sub_zero, add_zero, hu.toReal_eq, abs_mul, abs_of_nonneg u0]
      exact mul_le_mul_of_nonneg_left (hμ _ (hp cp hcp).1).2 u0)
    rw [show ((cs.zip ws).map fun _ => (0:ℝ)).sum = 0 by simp, sub_zero, mul_zero, add_zero] at this
    exact this.trans (mul_le_mul_of_nonneg_right hW (by linarith))
  have S2 : |weighted ws cs (fun c => μ c ^ 2 + v c)| ≤ 21 / 20 * (2 * L ^ 2) := by
    have := sum_close (cs.zip ws) (fun cp => cp.2.toReal * (μ cp.1 ^ 2 + v cp.1)) (fun _ => 0) (fun cp => cp.2.toReal) (2 * L ^ 2) 0 (fun cp hcp => by
      obtain ⟨u, hu, u0, -⟩ := (hp cp hcp).2
      rw [sub_zero, add_zero, hu.toReal_eq, abs_mul, abs_of_nonneg u0]
      refine mul_le_mul_of_nonneg_left ((abs_add_le _ _).trans ?_) u0
      have sq : |μ cp.1 ^ 2| ≤ L ^ 2 := by rw [abs_pow]; gcongr; exact (hμ _ (hp cp hcp).1).2
      linarith [(hv _ (hp cp hcp).1).2])
    rw [show ((cs.zip ws).map fun _ => (0:ℝ)).sum = 0 by simp, sub_zero, mul_zero, add_zero] at this
    exact this.trans (mul_le_mul_of_nonneg_right hW (by linarith))
  have split : ∀ (l : List (C × F64)) (a b : F64), l.foldl (fun acc cp =>
      (acc.1 + cp.2 * D.mean cp.1, acc.2 + cp.2 * (D.mean cp.1 * D.mean cp.1 + D.variance cp.1))) (a, b) =
      (l.foldl (fun a cp => a + cp.2 * D.mean cp.1) a, l.foldl (fun a cp => a + cp.2 * (D.mean cp.1 * D.mean cp.1 + D.variance cp.1)) b) := by
    intro l
    induction l with
    | nil => intro a b; rfl
    | cons cp l ih => intro a b; simp only [List.foldl_cons]; rw [ih]
  unfold Mixture.variance
  rw [hz]
  simp only
  rw [split]
  dsimp only
  set N : ℝ := (ws.length : ℝ)
  set K := L ^ 2 / 2 ^ 50 with hK
  have k0 : 0 < K := by positivity
  have W1' := W1.mono (show 11 / 10 * 0 + (N + 1) * (L / 2 ^ 50) ≤ (N + 1) * (L / 2 ^ 50) by linarith)
  have W2' := W2.mono (show 11 / 10 * (L ^ 2 / 2 ^ 50) + (N + 1) * (2 * L ^ 2 / 2 ^ 50) ≤ (2 * N + 4) * K by rw [hK]; ring_nf; nlinarith)
  have kL : L ^ 2 = 2 ^ 50 * K := by rw [hK]; field_simp
  have kmin : 1 / 2 ^ 120 ≤ K / 100 := by rw [hK]; norm_num; linarith
  have nk : N * K ≤ 2 ^ 30 * K := mul_le_mul_of_nonneg_right nr k0.le
  have nk0 : 0 ≤ N * K := mul_nonneg n0 k0.le
  have hK2 : K ≤ 2 ^ 130 := by
    rw [hK, div_le_iff₀ (by positivity)]; refine q2.trans ?_; norm_num
  have hSd : 21 / 20 * L * ((N + 1) * (L / 2 ^ 50)) = 21 / 20 * (N * K + K) := by rw [hK]; ring
  have hdd : (N + 1) * (L / 2 ^ 50) * ((N + 1) * (L / 2 ^ 50)) ≤ (N * K + K) / 100 := by
    have e : (N + 1) * (L / 2 ^ 50) * ((N + 1) * (L / 2 ^ 50)) = (N + 1) / 2 ^ 50 * (N * K + K) := by rw [hK]; ring
    rw [e]
    have : (N + 1) / 2 ^ 50 ≤ 1 / 100 := by rw [div_le_div_iff₀ (by positivity) (by norm_num)]; norm_num at nr ⊢; linarith
    have := mul_le_mul_of_nonneg_right this (show 0 ≤ N * K + K by linarith)
    linarith
  have hSS : 21 / 20 * L * (21 / 20 * L) = 441 / 400 * (2 ^ 50 * K) := by rw [← kL]; ring
  have W3 := Within.mul (ρ := (3 * N + 4) * K) (21 / 20 * L) (21 / 20 * L) W1' W1' S1 S1 ?_ ?_
  · rw [← pow_two] at W3
    have b3 : |weighted ws cs μ ^ 2| ≤ 2 * L ^ 2 := by
      rw [abs_pow]
      have : |weighted ws cs μ| ^ 2 ≤ (21 / 20 * L) ^ 2 := by gcongr
      nlinarith
    refine (Within.sub (ρ := (6 * N + 10) * K) (5 * L ^ 2) W2' W3 ?_ ?_ ?_).mono ?_
    · rw [sub_eq_add_neg]; refine (abs_add_le _ _).trans ?_; rw [abs_neg]; linarith
    · rw [kL, ← add_mul]; norm_num at kmin nk ⊢; linarith
    · rw [kL, ← add_mul]; norm_num at nk hK2 ⊢; linarith
    · rw [kL]; norm_num; linarith
  · rw [hSd, hSS]; norm_num at hdd kmin nk ⊢; linarith
  · rw [hSd, hSS]; norm_num at hdd nk hK2 ⊢; linarith
end

section
variable [FP] [FP.Lawful] [FP.Libm] [FP.Accurate] [FP.SpecialFns] {S P X σ : Type} [Support S]

/-- C271: the distribution function of a mixture of at most 2^30 normal laws is within (n + 10) 2^-50 of the weighted sum of theirs -/
theorem C271_normals {D : Comp UvNormal S P F64 σ} (hD : D.cdf = UvNormal.cdf) {ws : List F64} {cs : List UvNormal} {m : Mixture UvNormal S}
    (h : Mixture.new D ws cs = .ok (.ok m)) (hn : ws.length ≤ 2 ^ 30)
    (hc : ∀ c ∈ cs, UvNormal.new c.mu c.Sigma = .ok c ∧ IsF64 c.mu ∧ IsF64 c.Sigma ∧ c.mu.isFinite ∧ c.Sigma.isFinite) :
    AccurateCDF (m.cdf D) (fun x => weighted ws cs fun c => Phi ((x - c.mu.toReal) / √c.Sigma.toReal)) Set.univ ((ws.length + 10) / 2 ^ 50) := by
  intro x r fx hx hr
  have := (C271_mixture h hn (g := fun c => Phi ((r - c.mu.toReal) / √c.Sigma.toReal)) (ε := 1 / 2 ^ 47) (M := 1) (by positivity) (by norm_num)
    (by rw [div_le_one (by positivity)]; exact one_le_pow₀ (by norm_num)) (one_le_pow₀ (by norm_num))
    (fun c _ => by obtain ⟨h1, h2⟩ := Phi_mem ((r - c.mu.toReal) / √c.Sigma.toReal); rw [abs_of_pos h1]; exact h2.le)).1 x (fun c hcc => by
      obtain ⟨h1, h2, h3, h4, h5⟩ := hc c hcc
      rw [hD]
      exact C251_normal h1 h2 h4.is h3 h5.is x r fx hx hr)
  refine this.mono ?_
  have e : ((ws.length : ℝ) + 10) / 2 ^ 50 = (ws.length + 1) * (1 / 2 ^ 50) + 9 / 2 ^ 50 := by ring
  rw [e]
  have : (11:ℝ) / 10 * (1 / 2 ^ 47) ≤ 9 / 2 ^ 50 := by norm_num
  linarith
end

section
open B64
attribute [local instance] binary64 binary64_lawful B64.libm B64.specialFns B64.accurate

/-- C271 (violation): relatively, all the digits of a variance can be lost: the mixture whose only component is `Normal(2^j, 1)` has computed
variance 0 in binary64 for every `j` from 27 to 500, the true one being 1 -/
theorem C271_variance_violated {S P X σ : Type} [Support S] {D : Comp UvNormal S P X σ} (hm : D.mean = UvNormal.mean) (hv : D.variance = UvNormal.variance)
    (j : ℕ) (h1 : 27 ≤ j) (h2 : j ≤ 500) :
    ∃ n m, UvNormal.new (fin (2 ^ j)) 1 = .ok n ∧ Mixture.new D [1] [n] = .ok (.ok m) ∧ (m.variance D).Is 0 ∧ n.variance.Is 1 ∧
      weighted [1] [n] (fun c => c.mu.toReal ^ 2 + c.Sigma.toReal) - weighted [1] [n] (fun c => c.mu.toReal) ^ 2 = 1 := by
  let n : UvNormal := ⟨fin (2 ^ j), 1⟩
  obtain ⟨m, hmix⟩ := single_ok (D := D) n
  obtain ⟨hz, -⟩ := mixture_parts hmix
  refine ⟨n, m, UvNormal.new_ok.2 ⟨lt_of_pos one_pos Is.one, rfl⟩, hmix, ?_, Is.one, ?_⟩
  · have K : ∀ k : ℕ, k ≤ 1000 → Keep ((2:ℝ) ^ k) := fun k hk => by
      refine ⟨?_, FP.Lawful.not_huge _ ?_⟩
      · have := rnd_two_pow (e := (k:ℤ)) (by omega); rwa [zpow_natCast] at this
      · rw [abs_of_pos (by positivity)]; exact pow_le_pow_right₀ (by norm_num) (by omega)
    have A : ∀ {a b : F64} {r s t : ℝ}, a.Is r → b.Is s → r + s = t → Keep t → (a + b).Is t := fun ha hb e k => by
      have := add_is ha hb (by rw [e, k.1]; exact k.2); rwa [e, k.1] at this
    have M : ∀ {a b : F64} {r s t : ℝ}, a.Is r → b.Is s → r * s = t → Keep t → (a * b).Is t := fun ha hb e k => by
      have := mul_is ha hb (by rw [e, k.1]; exact k.2); rwa [e, k.1] at this
    have e2 : (2:ℝ) ^ j * 2 ^ j = 2 ^ (2 * j) := by rw [← pow_add]; congr 1; omega
    have ro : B64.rnd ((2:ℝ) ^ (2 * j) + 1) = 2 ^ (2 * j) := by
      have p1 : (1:ℝ) < 2 ^ (2 * j) := one_lt_pow₀ (by norm_num) (by omega)
      have c0 : (2:ℝ) ^ (2 * (j:ℤ) - 52 + 52) = 2 ^ (2 * j) := by rw [← zpow_natCast]; congr 1; push_cast; ring
      have c1 : (2:ℝ) ^ (2 * (j:ℤ) - 52 + 53) = 2 ^ (2 * j) * 2 := by
        rw [← zpow_natCast, ← zpow_add_one₀ (by norm_num)]; congr 1; push_cast; ring
      have c2 : (2:ℝ) ^ (2 * j) = 2 ^ 52 * 2 ^ (2 * (j:ℤ) - 52) := by
        rw [← zpow_natCast, ← zpow_natCast, ← zpow_add₀ (by norm_num)]; congr 1; push_cast; ring
      have := rnd_eq (x := (2:ℝ) ^ (2 * j) + 1) (2 ^ 52) (2 * (j:ℤ) - 52) (by omega) (by rw [c0]; linarith) (by rw [c1]; linarith) (by
        have p : (0:ℝ) < 2 ^ (2 * (j:ℤ) - 52) := by positivity
        have big : (2:ℝ) < 2 ^ (2 * (j:ℤ) - 52) := by
          calc (2:ℝ) = 2 ^ (1:ℤ) := by norm_num
            _ < _ := zpow_lt_zpow_right₀ (by norm_num) (by omega)
        rw [c2, add_div, mul_div_cancel_right₀ _ p.ne']
        rw [show ((2 ^ 52 : ℤ) : ℝ) = 2 ^ 52 by norm_num, add_sub_cancel_left, abs_of_pos (by positivity), one_div, one_div]
        exact inv_strictAnti₀ (by norm_num) big)
      rw [this, c2]; push_cast; ring
    have q : (D.mean n * D.mean n + D.variance n).Is (2 ^ (2 * j)) := by
      rw [hm, hv]
      have s1 := M (Is.fin (2 ^ j)) (Is.fin (2 ^ j)) e2 (K (2 * j) (by omega))
      have := add_is s1 Is.one (by change ¬ FP.huge (B64.rnd _); rw [ro]; exact (K _ (by omega)).2)
      exact this.congr ro
    have w1 : ((0:F64) + 1 * D.mean n).Is (2 ^ j) := by
      rw [hm]; exact A Is.zero (M Is.one (Is.fin _) (one_mul _) (K j (by omega))) (zero_add _) (K j (by omega))
    have w2 := A Is.zero (M Is.one q (one_mul _) (K _ (by omega))) (zero_add _) (K (2 * j) (by omega))
    have w3 := M w1 w1 e2 (K (2 * j) (by omega))
    unfold Mixture.variance
    rw [hz]
    have k0 : Keep (0:ℝ) := ⟨F64.rnd_zero, FP.Lawful.not_huge _ (by rw [abs_zero]; positivity)⟩
    exact A w2 w3.neg (by ring) k0
  · have t1 : (1 : F64).toReal = 1 := Is.one.toReal_eq
    have t2 : n.mu.toReal = 2 ^ j := (Is.fin _).toReal_eq
    have t3 : n.Sigma.toReal = 1 := Is.one.toReal_eq
    simp only [weighted, List.zip_cons_cons, List.zip_nil_right, List.map_cons, List.map_nil, List.sum_cons, List.sum_nil, t1, t2, t3]
    ring

/-- C271 non-vacuity: the mixture of a single normal law is accepted; the bound at 1 and the variance of its mixture -/
example {P σ : Type} {D : Comp UvNormal Interval P F64 σ} (hD : D.cdf = UvNormal.cdf) (hm : D.mean = UvNormal.mean) (hv : D.variance = UvNormal.variance) :
    ∃ m, Mixture.new D [1] [(⟨fin 1, fin 1⟩ : UvNormal)] = .ok (.ok m) ∧
      (∃ p, (m.cdf D (fin 1)).val.Is p ∧ |p - 1 / 2| ≤ 11 / 2 ^ 50) ∧ Within (m.variance D) 1 (3 / 2 ^ 47) := by
  obtain ⟨m, hmix⟩ := single_ok (D := D) (⟨fin 1, fin 1⟩ : UvNormal)
  have f1 : IsF64 (fin 1) := by have := isF64_pow 0 (by norm_num); norm_num at this; exact this
  refine ⟨m, hmix, ?_, ?_⟩
  · obtain ⟨p, hp, he⟩ := C271_normals hD hmix (by norm_num) (fun c hc => by
      rw [List.mem_singleton.1 hc]
      exact ⟨UvNormal.new_ok.2 ⟨lt_of_pos one_pos (Is.fin _), rfl⟩, f1, f1, trivial, trivial⟩) (fin 1) 1 f1 (Is.fin _) trivial
    refine ⟨p, hp, ?_⟩
    simp only [weighted, List.zip_cons_cons, List.zip_nil_right, List.map_cons, List.map_nil, List.sum_cons, List.sum_nil, List.length_cons, List.length_nil,
      (Is.fin (1:ℝ)).toReal_eq, Is.one.toReal_eq, sub_self, zero_div, Phi_zero] at he
    norm_num at he ⊢; exact he
  · have := C271_variance_partial hmix (by norm_num) (μ := fun _ => 1) (v := fun _ => 1) (L := 1) le_rfl (by norm_num)
      (fun c hc => by rw [List.mem_singleton.1 hc, hm]; exact ⟨Is.fin _, by norm_num⟩) (fun c hc => by rw [List.mem_singleton.1 hc, hv]; exact ⟨Is.fin _, by norm_num⟩)
    simp only [weighted, List.zip_cons_cons, List.zip_nil_right, List.map_cons, List.map_nil, List.sum_cons, List.sum_nil, List.length_cons, List.length_nil,
      Is.one.toReal_eq] at this
    norm_num at this ⊢; exact this
end
end Rstat
