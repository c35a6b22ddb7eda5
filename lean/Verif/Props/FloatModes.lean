import Verif.Props.FloatMedian
import Verif.Props.FloatMoments2
import Verif.Props.Dist.Cauchy
import Verif.Props.Dist.Logistic
import Verif.Props.Dist.Laplace
import Verif.Props.Normal

/-! C255, continued: modes; the median of the Kumaraswamy law; location families; and the laws whose median or mode is lost. -/
set_option linter.unusedSectionVars false
namespace Rstat
open F64 Spec Consts Real

section exactReals
attribute [local instance] exactFP exactFP_exact

theorem invNormal_mode {μ l : ℝ} (hμ : 0 < μ) (hl : 0 < l) :
    ∀ y, IsMode (invNormalPDF μ l) y ↔ y = μ * (√(1 + 9 * μ * μ / 4 / l / l) - 3 * μ / 2 / l) := by
  have hd : InvNormal.new (fin μ) (fin l) = .ok ⟨fin μ, fin l, UvNormal.standard⟩ := InvNormal.new_ok.2 ⟨lt_of_pos hμ (Is.fin _), lt_of_pos hl (Is.fin _), rfl⟩
  obtain ⟨-, -, -, -, -, -, -, ⟨x, r, e, hx, h⟩, -⟩ := C177_invNormal hd (Is.fin μ) (Is.fin l)
  have e2 := (List.cons.inj e).1
  have p : 0 ≤ 1 + 9 * μ * μ / 4 / l / l := by positivity
  have : r = μ * (√(1 + 9 * μ * μ / 4 / l / l) - 3 * μ / 2 / l) := by
    rw [← e2] at hx
    exact is_uniq hx (by fev)
  rw [← this]; exact h

theorem location_real {m s : ℝ} (hs : 0 < s) :
    (cauchyCDF m s m = 1 / 2 ∧ IsMode (cauchyDensity m s) m) ∧ (logisticCDF m s m = 1 / 2 ∧ IsMode (logisticPDF m s) m) ∧
    (laplaceCDF m s m = 1 / 2 ∧ IsMode (laplacePDF m s) m) ∧ (cosineCDF m s m = 1 / 2 ∧ IsMode (cosinePDF m s) m) ∧ IsMode (gumbelPDF m s) m := by
  have i := Is.fin m
  have j := Is.fin s
  have h0 : (0 : F64) < fin s := lt_of_pos hs j
  have md : ∀ {y : F64} {x : ℝ} {l : List F64}, l = [fin m] → l = [y] → y.Is x → x = m := by
    intro y x l e1 e2 hy
    rw [e1] at e2
    cases e2
    exact is_uniq hy i
  obtain ⟨-, -, -, -, -, -, -, ⟨x1, hx1, c1⟩, ⟨y1, z1, e1, hz1, d1⟩, -⟩ := C59_cauchy (Cauchy.new_ok.2 ⟨h0, rfl⟩) i j
  obtain ⟨-, -, -, -, -, -, -, -, -, ⟨x2, hx2, c2⟩, ⟨y2, z2, e2, hz2, d2⟩, -⟩ := C66_logistic (Logistic.new_ok.2 ⟨h0, rfl⟩) i j
  obtain ⟨-, -, -, -, -, -, -, ⟨x3, hx3, c3⟩, ⟨y3, z3, e3, hz3, d3⟩, -⟩ := C65_laplace_rest_partial (Laplace.new_ok.2 ⟨h0, rfl⟩) i j
  obtain ⟨-, -, -, -, -, -, -, ⟨x4, hx4, c4⟩, ⟨y4, z4, e4, hz4, d4⟩⟩ := C78_cosine_partial (Cosine.new_ok.2 ⟨h0, rfl⟩) i j
  obtain ⟨-, -, -, -, -, -, -, -, -, ⟨y5, z5, e5, hz5, d5⟩, -⟩ := C67_gumbel (Gumbel.new_ok.2 ⟨h0, rfl⟩) i j
  refine ⟨⟨?_, ?_⟩, ⟨?_, ?_⟩, ⟨?_, ?_⟩, ⟨?_, ?_⟩, ?_⟩
  · rw [is_uniq hx1 i] at c1; exact c1
  · rw [md rfl e1 hz1] at d1; exact d1
  · rw [is_uniq hx2 i] at c2; exact c2
  · rw [md rfl e2 hz2] at d2; exact d2
  · rw [is_uniq hx3 i] at c3; exact c3
  · rw [md rfl e3 hz3] at d3; exact d3
  · rw [is_uniq hx4 i] at c4; exact c4
  · rw [md rfl e4 hz4] at d4; exact d4
  · rw [md rfl e5 hz5] at d5; exact d5

end exactReals
section
variable [FP] [FP.Lawful] [FP.Libm] [FP.Accurate] {a b c : F64} {μ s t α β p q : ℝ} {j k n : ℕ}

/-- C255 (families with a location): median and mode are returned without any error, whatever the arithmetic. -/
theorem C255_location (ha : a.Is μ) (hb : b.Is s) (hs : 0 < s) :
    (∀ d, Cauchy.new a b = .ok d → d.median.Is μ ∧ cauchyCDF μ s μ = 1 / 2 ∧ d.modes = [a] ∧ IsMode (cauchyDensity μ s) μ) ∧
    (∀ d, Logistic.new a b = .ok d → d.median.Is μ ∧ logisticCDF μ s μ = 1 / 2 ∧ d.modes = [a] ∧ IsMode (logisticPDF μ s) μ) ∧
    (∀ d, Laplace.new a b = .ok d → d.median.Is μ ∧ laplaceCDF μ s μ = 1 / 2 ∧ d.modes = [a] ∧ IsMode (laplacePDF μ s) μ) ∧
    (∀ d, Cosine.new a b = .ok d → d.median.Is μ ∧ cosineCDF μ s μ = 1 / 2 ∧ d.modes = [a] ∧ IsMode (cosinePDF μ s) μ) ∧
    (∀ d, Gumbel.new a b = .ok d → d.modes = [a] ∧ IsMode (gumbelPDF μ s) μ) := by
  have _ := hb
  obtain ⟨⟨r1, r2⟩, ⟨r3, r4⟩, ⟨r5, r6⟩, ⟨r7, r8⟩, r9⟩ := location_real (m := μ) hs
  refine ⟨fun d h => ?_, fun d h => ?_, fun d h => ?_, fun d h => ?_, fun d h => ?_⟩
  · obtain ⟨_, rfl⟩ := Cauchy.new_ok.1 h; exact ⟨ha, r1, rfl, r2⟩
  · obtain ⟨_, rfl⟩ := Logistic.new_ok.1 h; exact ⟨ha, r3, rfl, r4⟩
  · obtain ⟨_, rfl⟩ := Laplace.new_ok.1 h; exact ⟨ha, r5, rfl, r6⟩
  · obtain ⟨_, rfl⟩ := Cosine.new_ok.1 h; exact ⟨ha, r7, rfl, r8⟩
  · obtain ⟨_, rfl⟩ := Gumbel.new_ok.1 h; exact ⟨rfl, r9⟩

/-- C255 (gamma law): the mode, for shapes above 1. -/
theorem C255_gamma {d : Gamma} (h : Gamma.new a b = .ok d) (ha : a.Is α) (hb : b.Is β) (hα : Ordinary (α - 1)) (hβ : Ordinary β) :
    ∃ y m, d.modes = .ok [y] ∧ IsMode (ProbabilityTheory.gammaPDFReal α β) m ∧ RelClose y m (1 / 2 ^ 40) := by
  obtain ⟨_, _, rfl⟩ := Gamma.new_ok.1 h
  have α1 := hα.pos
  refine ⟨_, _, ?_, gamma_mode (by linarith) hβ.pos, ((Rel.sub_ord ha Is.one hα).div (Rel.ord hb hβ) (by norm_num) (by norm_num)).close40 (by norm_num)⟩
  unfold Gamma.modes
  rw [if_neg (fun hlt => by have := (ha.lt_iff Is.one).1 hlt; linarith)]

/-- C255 (inverse gamma law): the mode. -/
theorem C255_inverse_gamma {d : InvGamma} (h : InvGamma.new a b = .ok d) (ha : a.Is α) (hb : b.Is β) (hα : Ordinary α) (hβ : Ordinary β) :
    ∃ y m, d.modes = [y] ∧ IsMode (invGammaPDF α β) m ∧ RelClose y m (1 / 2 ^ 40) := by
  obtain ⟨_, _, rfl⟩ := InvGamma.new_ok.1 h
  exact ⟨_, _, rfl, invGamma_mode hα.pos hβ.pos, ((Rel.ord hb hβ).div ((Rel.ord ha hα).add (Rel.one.mono (by norm_num) le_rfl) hα.pos one_pos
    (by norm_num) (by norm_num)) (by norm_num) (by norm_num)).close40 (by norm_num)⟩

/-- C255 (beta prime law): the mode, for first shape above 1. -/
theorem C255_beta_prime {d : BetaPrime} (h : BetaPrime.new a b = .ok d) (ha : a.Is α) (hb : b.Is β) (hα : Ordinary (α - 1)) (hβ : Ordinary β) :
    ∃ y m, d.modes = [y] ∧ IsMode (betaPrimePDF α β) m ∧ RelClose y m (1 / 2 ^ 40) := by
  obtain ⟨_, _, rfl⟩ := BetaPrime.new_ok.1 h
  have α1 := hα.pos
  refine ⟨_, _, ?_, bp_mode (by linarith) hβ.pos, ((Rel.sub_ord ha Is.one hα).div ((Rel.ord hb hβ).add (Rel.one.mono (by norm_num) le_rfl) hβ.pos one_pos
    (by norm_num) (by norm_num)) (by norm_num) (by norm_num)).close40 (by norm_num)⟩
  unfold BetaPrime.modes
  rw [if_pos ((Is.one.le_iff ha).2 (by linarith))]

/-- C255 (beta law): the mode, for shapes at least 17/16 (nearer to 1 the denominator is lost, see below). -/
theorem C255_beta_partial {d : BetaDist} (h : BetaDist.new a b = .ok d) (ha : a.Is α) (hb : b.Is β) (hα : 1 + 1 / 16 ≤ α) (hβ : 1 + 1 / 16 ≤ β)
    (hα' : α ≤ 2 ^ 60) (hβ' : β ≤ 2 ^ 60) :
    ∃ y m, d.modes = [y] ∧ IsMode (ProbabilityTheory.betaPDFReal α β) m ∧ RelClose y m (1 / 2 ^ 40) := by
  obtain ⟨_, _, rfl⟩ := BetaDist.new_ok.1 h
  have α0 : 0 < α := by linarith
  have β0 : 0 < β := by linarith
  refine ⟨(a - 1) / (a + b - 2), _, ?_, beta_mode (by linarith) (by linarith), ?_⟩
  · unfold BetaDist.modes
    rw [if_pos ⟨(Is.one.lt_iff ha).2 (by linarith), (Is.one.lt_iff hb).2 (by linarith)⟩]
  · have r : Rel a α 60 0 := Rel.ord ha ⟨le_trans (by norm_num) (show 1 ≤ α by linarith), hα'⟩
    have q : Rel b β 60 0 := Rel.ord hb ⟨le_trans (by norm_num) (show 1 ≤ β by linarith), hβ'⟩
    have d1 : Rel (a - 1) (α - 1) 60 1 := Rel.sub_ord ha Is.one ⟨le_trans (by norm_num) (show 1 / 16 ≤ α - 1 by linarith), by linarith⟩
    have d2 := (r.add q α0 β0 (by norm_num) (by norm_num)).sub_amp (k := 61) 33 ((Rel.num 2 (by norm_num)).mono (by norm_num) (by norm_num))
      (by rw [abs_of_pos (by linarith)]; refine le_trans (b := 1 / 8) (by norm_num) (by linarith))
      (by rw [abs_of_pos (by linarith)]; have : (2:ℝ) ^ 61 = 2 * 2 ^ 60 := by norm_num
          linarith)
      (by rw [abs_of_pos (by linarith), abs_of_pos (by norm_num), abs_of_pos (by linarith)]; push_cast; linarith) (by norm_num) (by norm_num)
    exact (d1.div d2 (by norm_num) (by norm_num)).close40 (by norm_num)

/-- C255 (chi-squared, chi and Erlang laws): the modes. -/
theorem C255_counts {k : ℕ} (hk : 2 ≤ k) (hk' : k < 2 ^ 63) (hb : b.Is β) (hβ : Ordinary β) (pr : Profile) :
    (∀ d, ChiSq.new k = .ok d → ∃ y m, d.modes pr = .ok [y] ∧ IsMode (ProbabilityTheory.gammaPDFReal (k / 2) (1 / 2)) m ∧ RelClose y m (1 / 2 ^ 40)) ∧
    (∀ d, Chi.new k = .ok d → ∃ y m, d.modes = [y] ∧ IsMode (chiPDF k) m ∧ RelClose y m (1 / 2 ^ 40)) ∧
    (∀ d, Erlang.new k b = .ok d → ∃ y m, d.modes pr = .ok [y] ∧ IsMode (ProbabilityTheory.gammaPDFReal k β) m ∧ RelClose y m (1 / 2 ^ 40)) := by
  have k2 : (2:ℝ) ≤ k := by exact_mod_cast hk
  have r1 := Rel.ofNat (k := k - 1) (by omega) (by omega)
  have e1 : ((k - 1 : ℕ) : ℝ) = k - 1 := by rw [Nat.cast_sub (by omega)]; norm_num
  refine ⟨fun d h => ?_, fun d h => ?_, fun d h => ?_⟩
  · obtain ⟨_, rfl⟩ := ChiSq.new_ok.1 h
    refine ⟨F64.ofNat (k - 2), _, ?_, gamma_mode (a := (k:ℝ) / 2) (by linarith) (by norm_num), ?_⟩
    · unfold ChiSq.modes
      have : Max.max k 2 = k := max_eq_left hk
      simp only [this]
      rw [usub_ok hk]
      rfl
    · rcases Nat.lt_or_ge 2 k with h3 | h3
      · have := Rel.ofNat (k := k - 2) (by omega) (by omega)
        refine (this.congr ?_).close40 (by norm_num)
        rw [Nat.cast_sub hk]; push_cast; ring
      · obtain rfl : k = 2 := by omega
        exact ⟨0, by simpa [F64.ofNat] using (round_zero_is : (F64.round 0).Is 0), by norm_num⟩
  · obtain ⟨_, rfl⟩ := Chi.new_ok.1 h
    refine ⟨(F64.ofNat (k - 1)).sqrt, _, ?_, chi_mode (k := (k:ℝ)) (by linarith), ?_⟩
    · unfold Chi.modes
      rw [if_pos (by show 1 ≤ k; omega)]
    · exact ((r1.sqrt (by rw [e1]; linarith) (by norm_num) (by norm_num)).congr (by rw [e1])).close40 (by norm_num)
  · obtain ⟨_, _, rfl⟩ := Erlang.new_ok.1 h
    refine ⟨F64.ofNat (k - 1) / b, _, ?_, gamma_mode (a := (k:ℝ)) (by linarith) hβ.pos, ?_⟩
    · unfold Erlang.modes
      rw [usub_ok (by show 1 ≤ k; omega)]
      rfl
    · exact ((r1.div (Rel.ord hb hβ) (by norm_num) (by norm_num)).congr (by rw [e1])).close40 (by norm_num)

/-- C255 (F law): the mode. -/
theorem C255_f_dist {m n : ℕ} {d : FDist} (h : FDist.new m n = .ok d) (hm : m < 2 ^ 64) (hn : n < 2 ^ 63) (h2 : 2 < m) :
    ∃ y c, d.modes = .ok [y] ∧ IsMode (fPDF m n) c ∧ RelClose y c (1 / 2 ^ 40) := by
  obtain ⟨m0, n0, rfl⟩ := FDist.new_ok.1 h
  have n0' : (0:ℝ) < n := by exact_mod_cast n0
  refine ⟨(F64.ofNat m - 2) / F64.ofNat m * F64.ofNat n / (F64.ofNat n + 2), _, ?_, f_mode (m := (m:ℝ)) (by exact_mod_cast h2) n0', ?_⟩
  · unfold FDist.modes
    rw [if_neg (by simpa using h2)]
    rfl
  · have w : Rel (F64.ofNat m - 2) ((m : ℝ) - 2) 64 _ := Rel.ofNat_sub (C := 2) 5 Rel.two64 h2 hm (by omega) (by norm_num)
    have q := Rel.ofNat n0 (by omega : n < 2 ^ 64)
    exact (((w.div (Rel.ofNat m0 hm) (by norm_num) (by norm_num)).mul q (by norm_num) (by norm_num)).div
      (q.add ((Rel.num 2 (by norm_num)).mono (by norm_num) (by norm_num)) n0' (by norm_num) (by norm_num) (by norm_num)) (by norm_num) (by norm_num)).close40
      (by norm_num)

/-- C255 (inverse normal law): the mode, when the mean does not exceed the shape (beyond that it is lost, see below). -/
theorem C255_inverse_normal_partial {d : InvNormal} (h : InvNormal.new a b = .ok d) (ha : a.Is μ) (hb : b.Is s) (hμ : Ordinary μ) (hs : Ordinary s)
    (hle : μ ≤ s) : ∃ y m, d.modes = [y] ∧ IsMode (invNormalPDF μ s) m ∧ RelClose y m (1 / 2 ^ 40) := by
  obtain ⟨_, _, rfl⟩ := InvNormal.new_ok.1 h
  have μ0 := hμ.pos
  have s0 := hs.pos
  refine ⟨_, _, rfl, (invNormal_mode μ0 s0 _).2 rfl, ?_⟩
  have r := Rel.ord ha hμ
  have q := Rel.ord hb hs
  have x1 := ((((((Rel.num 9 (by norm_num)).mul r (by norm_num) (by norm_num)).mul r (by norm_num) (by norm_num)).div (Rel.num 4 (by norm_num)) (by norm_num)
    (by norm_num)).div q (by norm_num) (by norm_num)).div q (by norm_num) (by norm_num))
  have x2 := (((Rel.one.mono (by norm_num) (by norm_num)).add x1 one_pos (by positivity) (by norm_num) (by norm_num)).sqrt (by positivity) (by norm_num)
    (by norm_num))
  have x3 := ((((Rel.num 3 (by norm_num)).mul r (by norm_num) (by norm_num)).div (Rel.num 2 (by norm_num)) (by norm_num)
    (by norm_num)).div q (by norm_num) (by norm_num))
  have g : 3 * μ / 2 / s ≤ 3 / 2 := by rw [div_le_iff₀ s0]; linarith
  have g0 : 0 < 3 * μ / 2 / s := by positivity
  have e : 9 * μ * μ / 4 / s / s = (3 * μ / 2 / s) ^ 2 := by field_simp; norm_num
  generalize hR : 3 * μ / 2 / s = R at *
  rw [e] at x1 x2 ⊢
  have p0 : 0 < 1 + R ^ 2 := by positivity
  have sq := Real.sq_sqrt p0.le
  have sp := Real.sqrt_pos.2 p0
  have lo : R + 1 / 4 ≤ √(1 + R ^ 2) := Real.le_sqrt_of_sq_le (by nlinarith)
  have hi : √(1 + R ^ 2) ≤ 2 := by rw [Real.sqrt_le_left (by norm_num)]; nlinarith
  have d1 := (x2.mono (k' := 300) (by norm_num) (le_refl _)).sub_amp (k := 10) 14 (x3.mono (by norm_num) (by norm_num))
    (by rw [abs_of_pos (by linarith)]; refine le_trans (b := 1 / 4) (by norm_num) (by linarith))
    (by rw [abs_of_pos (by linarith)]; refine le_trans (b := 2) (by linarith) (by norm_num))
    (by rw [abs_of_pos sp, abs_of_pos g0, abs_of_pos (by linarith)]; push_cast; linarith) (by norm_num) (by norm_num)
  exact (r.mul d1 (by norm_num) (by norm_num)).close40 (by norm_num)

/-- C255 (Kumaraswamy law, shapes at least 1/16 and second shape at most 16): the median, to `2^-34` (for large second shapes it is lost, see below). -/
theorem C255_kumaraswamy_partial {d : Kumaraswamy} (h : Kumaraswamy.new a b = .ok d) (ha : a.Is α) (hb : b.Is β) (hα : Ordinary α) (h16 : 1 / 16 ≤ α)
    (h1 : 1 / 16 ≤ β) (h2 : β ≤ 16) : ∃ m, kumaraswamyCDF α β m = 1 / 2 ∧ RelClose d.median m (1 / 2 ^ 34) := by
  obtain ⟨_, _, rfl⟩ := Kumaraswamy.new_ok.1 h
  obtain ⟨α0, hr⟩ := recip_le h16 (by norm_num)
  obtain ⟨β0, hr2⟩ := recip_le h1 (by norm_num)
  have r0 : 0 < 1 / α := by positivity
  have l2 := Real.log_two_gt_d9
  have l3 := Real.log_two_lt_d9
  refine ⟨_, kuma_median α0 β0, ?_⟩
  have rb : Rel b β 60 0 := Rel.ord hb ⟨le_trans (by norm_num) h1, h2.trans (by norm_num)⟩
  have m1 : Rel (F64.fin (-1)) (-1) 0 0 := Rel.exact (Is.fin _) (by norm_num) (by norm_num)
  have ex := m1.div rb (by norm_num) (by norm_num)
  have eb : -1 / β = -(1 / β) := by ring
  have w := (Rel.num 2 (by norm_num)).powf 12 16 ex (by norm_num)
    (by rw [eb, abs_mul, abs_neg, abs_of_pos (by positivity), abs_of_pos (by linarith)]; push_cast; nlinarith)
    (by rw [eb, abs_neg, abs_of_pos (by positivity)]; exact_mod_cast hr2) (by norm_num) (by norm_num) (by norm_num) (by norm_num)
  have up : (2:ℝ) ^ (-1 / β) ≤ 1 - 1 / 25 := by
    have p : 1 / 24 ≤ Real.log 2 * (1 / β) := by
      have : 1 / 16 ≤ 1 / β := one_div_le_one_div_of_le β0 h2
      nlinarith
    have : (2:ℝ) ^ (-1 / β) = (Real.exp (Real.log 2 * (1 / β)))⁻¹ := by
      rw [Real.rpow_def_of_pos (by norm_num), ← Real.exp_neg, eb, mul_neg]
    rw [this]
    have e1 := Real.add_one_le_exp (Real.log 2 * (1 / β))
    refine (inv_anti₀ (by norm_num) (show (1 + 1 / 24 : ℝ) ≤ _ by linarith)).trans (by norm_num)
  have dn : (0:ℝ) < 2 ^ (-1 / β) := by positivity
  have d1 := (Rel.one.mono (k' := 24) (n' := 27) (by norm_num) (by norm_num)).sub_amp (k := 24) 50 (w.mono (by norm_num) (by norm_num))
    (by rw [abs_of_pos (by linarith)]; refine le_trans (b := 1 / 25) (by norm_num) (by linarith))
    (by rw [abs_of_pos (by linarith)]; refine le_trans (b := 1) (by linarith) (by norm_num))
    (by rw [abs_of_pos dn, abs_one, abs_of_pos (by linarith)]; push_cast; linarith) (by norm_num) (by norm_num)
  have t0 : (0:ℝ) < 1 - 2 ^ (-1 / β) := by linarith
  have lg : |1 / α * Real.log (1 - 2 ^ (-1 / β))| ≤ (64:ℕ) := by
    have l0 : Real.log (1 - 2 ^ (-1 / β)) ≤ 0 := Real.log_nonpos t0.le (by linarith)
    have l1 : -Real.log (1 - 2 ^ (-1 / β)) ≤ 4 := by
      rw [← Real.log_inv, Real.log_le_iff_le_exp (by positivity)]
      have e3 : Real.exp 4 = Real.exp 1 ^ 4 := by rw [← Real.exp_nat_mul]; norm_num
      have := Real.exp_one_gt_d9
      have : (2.7:ℝ) ^ 4 ≤ Real.exp 1 ^ 4 := by gcongr; linarith
      rw [e3]
      norm_num at this
      have : (1 - (2:ℝ) ^ (-1 / β))⁻¹ ≤ 25 := by rw [inv_le_comm₀ t0 (by norm_num)]; linarith
      linarith
    rw [abs_mul, abs_of_pos r0, abs_of_nonpos l0]
    push_cast
    nlinarith
  obtain ⟨-, -, y, hy, he⟩ := d1.powf 64 16 (Rel.recip ha hα) t0 lg (by rw [abs_of_pos r0]; exact_mod_cast hr) (by norm_num) (by norm_num) (by norm_num) (by norm_num)
  refine ⟨y, hy, he.trans ?_⟩
  exact mul_le_mul_of_nonneg_right (by norm_num) (abs_nonneg _)

/-- C255 (standard deviations): the provided `standard_deviation`, the square root of the variance, loses no accuracy. -/
theorem C255_standard_deviation {v : ℝ} (h : RelClose a v (1 / 2 ^ 46)) (h1 : 1 / 2 ^ 800 ≤ v) (h2 : v ≤ 2 ^ 800) : RelClose a.sqrt (√v) (1 / 2 ^ 40) := by
  obtain ⟨y, hy, he⟩ := h
  have v0 : 0 < v := lt_of_lt_of_le (by positivity) h1
  have r : Rel a v 800 64 := ⟨by rwa [abs_of_pos v0], by rwa [abs_of_pos v0], y, hy, he.trans (mul_le_mul_of_nonneg_right (by norm_num) (abs_nonneg _))⟩
  exact (r.sqrt v0 (by norm_num) (by norm_num)).close40 (by norm_num)

end

/-! Violations, in correctly rounded binary64, and non-vacuity. -/
section
open B64
attribute [local instance] binary64 binary64_lawful B64.libm B64.specialFns B64.accurate

/-- powers of two near one are rounded to one -/
theorem two_pow_small {z : ℝ} (h0 : 0 < z) (h : z ≤ 1 / 2 ^ 54) : (2 : F64).powf (fin z) = fin 1 := by
  have p : (1:ℝ) ≤ 2 ^ z := Real.one_le_rpow (by norm_num) h0.le
  have q : (2:ℝ) ^ z ≤ 1 + z := by
    have := rpow_one_add_le_one_add_mul_self (s := 1) (p := z) (by norm_num) h0.le (h.trans (by norm_num))
    norm_num at this
    linarith
  have e : F64.round ((2:ℝ) ^ z) = fin 1 := by
    refine round_val ?_ one1024 one_ne_zero
    have := rnd_one_add (p := (2:ℝ) ^ z - 1) (by linarith) (by linarith)
    rwa [add_sub_cancel] at this
  have := powf_pos_ext (Is.num 2) (Is.fin z) (by norm_num) h0.ne'
  have e2 : FP.fpow (OfNat.ofNat 2) z = (2:ℝ) ^ z := rfl
  rw [e2, e] at this
  exact this

theorem two_pow_neg_small {z : ℝ} (h0 : 0 < z) (h : z ≤ 1 / 2 ^ 55) : (2 : F64).powf (fin (-z)) = fin 1 := by
  have p : (2:ℝ) ^ (-z) ≤ 1 := Real.rpow_le_one_of_one_le_of_nonpos (by norm_num) (by linarith)
  have q : 1 - 1 / 2 ^ 55 ≤ (2:ℝ) ^ (-z) := by
    have := Real.add_one_le_exp (Real.log 2 * -z)
    rw [Real.rpow_def_of_pos (by norm_num)]
    have l3 := Real.log_two_lt_d9
    have l2 := Real.log_two_gt_d9
    nlinarith
  have e : F64.round ((2:ℝ) ^ (-z)) = fin 1 := by
    refine round_val ?_ one1024 one_ne_zero
    rcases p.eq_or_lt with p | p
    · rw [p]; exact rnd_one
    have := rnd_eq (x := (2:ℝ) ^ (-z)) (2 ^ 53) (-53) (by norm_num) (by norm_num; norm_num at q; linarith) (by norm_num; linarith) (by
      have e : (2:ℝ) ^ (-z) / 2 ^ (-53:ℤ) - ((2 ^ 53 : ℤ) : ℝ) = -((1 - (2:ℝ) ^ (-z)) * 2 ^ 53) := by
        rw [zpow_neg, div_inv_eq_mul]; push_cast; norm_num; ring
      rw [e, abs_neg, abs_of_nonneg (mul_nonneg (by linarith) (by norm_num))]
      norm_num at q ⊢
      linarith)
    rw [this]
    rw [zpow_neg]; push_cast; norm_num
  have := powf_pos_ext (Is.num 2) (Is.fin (-z)) (by norm_num) (by linarith : -z ≠ 0)
  have e2 : FP.fpow (OfNat.ofNat 2) (-z) = (2:ℝ) ^ (-z) := rfl
  rw [e2, e] at this
  exact this

/-- the generalised Pareto median collapses to the location -/
theorem gpd_median_lost {μ s z : ℝ} (hμ : rnd μ = μ) (hμ' : |μ| < 2 ^ 1024) (h0 : 0 < z) (h : z ≤ 1 / 2 ^ 54) :
    (GeneralisedPareto.median ⟨fin μ, fin s, fin z⟩).Is μ := by
  show (fin μ + fin s * ((2 : F64).powf (fin z) - 1) / fin z).Is μ
  rw [two_pow_small h0 h]
  have z1 : (fin 1 - (1 : F64)).Is 0 := by
    have := add_ext (Is.fin 1) Is.one.neg
    rw [show (1:ℝ) + -1 = 0 by norm_num] at this
    exact round_zero_is.of_ext this.symm
  have z2 := zero_div_val (mul_zero_is z1 (Is.fin s)) (Is.fin z) h0.ne'
  have := add_ext (Is.fin μ) z2
  rw [add_zero] at this
  refine Is.of_ext ?_ this.symm
  have hh : ¬ FP.huge (FP.rnd μ) := by
    show ¬ (2:ℝ) ^ 1024 ≤ |rnd μ|
    rw [hμ]; exact not_le.2 hμ'
  have r := F64.round_is hh
  rwa [show FP.rnd μ = μ from hμ] at r

/-- the Kumaraswamy median collapses to 0 -/
theorem kuma_median_lost {α : ℝ} (n : ℕ) (h1 : 55 ≤ n) (h2 : n ≤ 1000) (hα : 0 < rnd (1 / α)) (hα' : rnd (1 / α) < 2 ^ 1024) (α0 : α ≠ 0) :
    (Kumaraswamy.median ⟨fin α, fin (2 ^ n)⟩).Is 0 := by
  show ((1 - (2 : F64).powf (F64.fin (-1) / fin (2 ^ n))).powf (1 / fin α)).Is 0
  have p0 : (0:ℝ) < 1 / 2 ^ n := by positivity
  have e1 : F64.fin (-1) / fin (2 ^ n) = fin (-(1 / 2 ^ n)) := by
    refine div_val (by positivity) ?_ ?_ (by linarith)
    · rw [neg_div, rnd_neg]
      congr 1
      have := rnd_two_pow (e := -(n:ℤ)) (by omega)
      rwa [zpow_neg, zpow_natCast, ← one_div] at this
    · rw [abs_neg, abs_of_pos p0]
      refine lt_of_le_of_lt ?_ (one_lt_pow₀ (by norm_num : (1:ℝ) < 2) (by norm_num : 1024 ≠ 0))
      rw [div_le_one (by positivity)]; exact one_le_pow₀ (by norm_num)
  have hz : (1:ℝ) / 2 ^ n ≤ 1 / 2 ^ 55 := (size_grow h1).2
  rw [e1, two_pow_neg_small p0 hz]
  have z1 : ((1 : F64) - fin 1).Is 0 := by
    have := add_ext Is.one (Is.fin 1).neg
    rw [show (1:ℝ) + -1 = 0 by norm_num] at this
    exact round_zero_is.of_ext this.symm
  have e2 : (1 : F64) / fin α = fin (rnd (1 / α)) := by
    have := div_fin_ext Is.one (Is.fin α) α0
    rw [round_val rfl (by rwa [abs_of_pos hα]) hα.ne'] at this
    exact ((Is.fin _).of_ext this.symm).eq_fin hα.ne'
  rw [e2]
  exact powf_zero_pos z1 (Is.fin _) hα

/-- the inverse normal mode collapses to 0 -/
theorem invNormal_mode_lost (n : ℕ) (h1 : 30 ≤ n) (h2 : n ≤ 500) :
    ∃ y, (InvNormal.modes ⟨fin (2 ^ n), fin 1, UvNormal.standard⟩) = [y] ∧ y.Is 0 := by
  refine ⟨_, rfl, ?_⟩
  have p0 : (0:ℝ) < 2 ^ n := by positivity
  obtain ⟨k, rfl⟩ : ∃ k, n = k + 1 := ⟨n - 1, by omega⟩
  have nine : ∀ j : ℕ, j ≤ 1010 → rnd (9 * 2 ^ j) = 9 * 2 ^ j := fun j hj => by
    have := rnd_repr 9 (j:ℤ) (by norm_num) (by omega)
    simpa using this
  have three : ∀ j : ℕ, j ≤ 1010 → rnd (3 * 2 ^ j) = 3 * 2 ^ j := fun j hj => by
    have := rnd_repr 3 (j:ℤ) (by norm_num) (by omega)
    simpa using this
  have sz : ∀ (c : ℝ) (j : ℕ), 0 < c → c ≤ 16 → j ≤ 1010 → |c * 2 ^ j| < 2 ^ 1024 := fun c j c0 hc hj => by
    rw [abs_of_pos (by positivity)]
    calc c * 2 ^ j ≤ 16 * 2 ^ 1010 := by
          have : (2:ℝ) ^ j ≤ 2 ^ 1010 := (size_grow hj).1
          gcongr
      _ = 2 ^ 1014 := by rw [show (1014:ℕ) = 4 + 1010 by norm_num, pow_add]; norm_num
      _ < _ := pow_lt_pow_right₀ (by norm_num) (by norm_num)
  have a1 : (9 : F64) * fin (2 ^ (k + 1)) = fin (9 * 2 ^ (k + 1)) := mul_val (nine _ (by omega)) (sz 9 _ (by norm_num) (by norm_num) (by omega)) (by positivity)
  have a2 : fin (9 * 2 ^ (k + 1)) * fin (2 ^ (k + 1)) = fin (9 * 2 ^ (2 * k + 2)) :=
    mul_val (by rw [mul_assoc, ← pow_add, show k + 1 + (k + 1) = 2 * k + 2 by ring]; exact nine _ (by omega)) (sz 9 _ (by norm_num) (by norm_num) (by omega)) (by positivity)
  have a3 : fin (9 * 2 ^ (2 * k + 2)) / (4 : F64) = fin (9 * 2 ^ (2 * k)) :=
    div_val (by norm_num) (by
      rw [show (9:ℝ) * 2 ^ (2 * k + 2) / (OfNat.ofNat 4 : ℝ) = 9 * 2 ^ (2 * k) by rw [pow_add]; norm_num; ring]; exact nine _ (by omega))
      (sz 9 _ (by norm_num) (by norm_num) (by omega)) (by positivity)
  have a4 : fin (9 * 2 ^ (2 * k)) / fin 1 = fin (9 * 2 ^ (2 * k)) := div_val one_ne_zero (by rw [div_one]; exact nine _ (by omega))
    (sz 9 _ (by norm_num) (by norm_num) (by omega)) (by positivity)
  have a5 : fin 1 + fin (9 * 2 ^ (2 * k)) = fin (9 * 2 ^ (2 * k)) := by
    refine add_val ?_ (sz 9 _ (by norm_num) (by norm_num) (by omega)) (by positivity)
    have q0 : (0:ℝ) < 2 ^ (2 * k) := by positivity
    have e1 : (2:ℝ) ^ ((2 * k : ℤ) - 49) * 2 ^ 49 = 2 ^ (2 * k) := by
      rw [← zpow_natCast (2:ℝ) 49, ← zpow_add₀ (by norm_num), ← zpow_natCast (2:ℝ) (2 * k)]; congr 1; push_cast; ring
    have e2 : (256:ℝ) ≤ 2 ^ ((2 * k : ℤ) - 49) := by
      rw [show (256:ℝ) = 2 ^ (8:ℤ) by norm_num]; exact zpow_le_zpow_right₀ (by norm_num) (by omega)
    have u0 : (0:ℝ) < 2 ^ ((2 * k : ℤ) - 49) := by positivity
    generalize hu : (2:ℝ) ^ ((2 * k : ℤ) - 49) = u at *
    have f1 : (2:ℝ) ^ ((2 * k : ℤ) - 49 + 52) = u * 8 * 2 ^ 49 := by rw [zpow_add₀ (by norm_num), hu]; norm_num; ring
    have f2 : (2:ℝ) ^ ((2 * k : ℤ) - 49 + 53) = u * 16 * 2 ^ 49 := by rw [zpow_add₀ (by norm_num), hu]; norm_num; ring
    have := rnd_eq (x := 1 + 9 * (2:ℝ) ^ (2 * k)) (9 * 2 ^ 49) ((2 * k : ℤ) - 49) (by omega)
      (by rw [f1, ← e1]; norm_num; linarith)
      (by rw [f2, ← e1]; norm_num; linarith)
      (by
        rw [hu, ← e1]
        have : (1 + 9 * (u * 2 ^ 49)) / u - ((9 * 2 ^ 49 : ℤ) : ℝ) = 1 / u := by push_cast; field_simp; ring
        rw [this, abs_of_pos (by positivity), div_lt_iff₀ u0]; linarith)
    rw [this, hu, ← e1]; push_cast; ring
  have a6 : (fin (9 * 2 ^ (2 * k))).sqrt = fin (3 * 2 ^ k) := by
    unfold F64.sqrt
    dsimp only
    rw [if_neg (not_lt.2 (by positivity))]
    refine round_val ?_ (sz 3 _ (by norm_num) (by norm_num) (by omega)) (by positivity)
    rw [show (9:ℝ) * 2 ^ (2 * k) = (3 * 2 ^ k) ^ 2 by ring, Real.sqrt_sq (by positivity)]
    exact three _ (by omega)
  have b1 : (3 : F64) * fin (2 ^ (k + 1)) = fin (3 * 2 ^ (k + 1)) := mul_val (three _ (by omega)) (sz 3 _ (by norm_num) (by norm_num) (by omega)) (by positivity)
  have b2 : fin (3 * 2 ^ (k + 1)) / (2 : F64) = fin (3 * 2 ^ k) :=
    div_val (by norm_num) (by
      rw [show (3:ℝ) * 2 ^ (k + 1) / (OfNat.ofNat 2 : ℝ) = 3 * 2 ^ k by rw [pow_succ]; norm_num; ring]; exact three _ (by omega))
      (sz 3 _ (by norm_num) (by norm_num) (by omega)) (by positivity)
  have b3 : fin (3 * 2 ^ k) / fin 1 = fin (3 * 2 ^ k) := div_val one_ne_zero (by rw [div_one]; exact three _ (by omega))
    (sz 3 _ (by norm_num) (by norm_num) (by omega)) (by positivity)
  show (fin (2 ^ (k + 1)) * ((fin 1 + 9 * fin (2 ^ (k + 1)) * fin (2 ^ (k + 1)) / 4 / fin 1 / fin 1).sqrt - 3 * fin (2 ^ (k + 1)) / 2 / fin 1)).Is 0
  rw [a1, a2, a3, a4, a4, a5, a6, b1, b2, b3]
  refine mul_zero_is ?_ (Is.fin _)
  have := add_ext (Is.fin (3 * 2 ^ k)) (Is.fin (3 * 2 ^ k)).neg
  rw [add_neg_cancel] at this
  exact round_zero_is.of_ext this.symm

/-- the beta mode next to 1 is wrong in its first digits: 1/4 instead of 1/3 -/
theorem beta_mode_lost : BetaDist.modes ⟨fin (1 + 1 / 2 ^ 52), fin (1 + 2 / 2 ^ 52)⟩ = [fin (1 / 4)] := by
  unfold BetaDist.modes
  dsimp only
  rw [if_pos ⟨(Is.one.lt_iff (Is.fin _)).2 (by norm_num), (Is.one.lt_iff (Is.fin _)).2 (by norm_num)⟩]
  have e1 : fin (1 + 1 / 2 ^ 52) - 1 = fin (1 / 2 ^ 52) := sub_val Is.one
    (by rw [show (1:ℝ) + 1 / 2 ^ 52 - 1 = 2 ^ (-52:ℤ) by norm_num, rnd_two_pow (by norm_num)]; norm_num) (lt1024 (by norm_num [abs_le])) (by norm_num)
  have e2 : fin (1 + 1 / 2 ^ 52) + fin (1 + 2 / 2 ^ 52) = fin (2 + 4 / 2 ^ 52) := by
    refine add_val ?_ (lt1024 (by norm_num [abs_le])) (by norm_num)
    rw [rnd_tie (2 ^ 52 + 1) (-51) (by norm_num) (by norm_num) (by norm_num) (by norm_num), if_neg (by decide)]
    norm_num
  have e3 : fin (2 + 4 / 2 ^ 52) - (2 : F64) = fin (1 / 2 ^ 50) := sub_val (Is.num 2)
    (by rw [show (2:ℝ) + 4 / 2 ^ 52 - (OfNat.ofNat 2 : ℝ) = 2 ^ (-50:ℤ) by norm_num, rnd_two_pow (by norm_num)]; norm_num) (lt1024 (by norm_num [abs_le])) (by norm_num)
  have e4 : fin (1 / 2 ^ 52) / fin (1 / 2 ^ 50) = fin (1 / 4) := div_val (by norm_num)
    (by rw [show (1:ℝ) / 2 ^ 52 / (1 / 2 ^ 50) = 2 ^ (-2:ℤ) by norm_num, rnd_two_pow (by norm_num)]; norm_num) (lt1024 (by norm_num [abs_le])) (by norm_num)
  rw [e1, e2, e3, e4]

/-- C255 does not hold over all accepted parameters, in IEEE binary64 with correctly rounded elementary functions: (1) for every generalised Pareto law with
shape at most `2^-54` the median returned is the location, below which and at which there is no probability at all; (2) for every Kumaraswamy law with second
shape a power of two from `2^55` up the median returned is 0, again a point of zero probability below; (3) for every inverse normal law with shape 1 and mean a
power of two from `2^30` up the mode returned is 0, which is not even within a factor of two of the mode; (4) for a beta law with shapes within two units of 1
the mode returned is 1/4 instead of 1/3. -/
theorem C255_float_medians_violated :
    (∀ μ s z : ℝ, rnd μ = μ → |μ| < 2 ^ 1024 → 0 < s → 0 < z → z ≤ 1 / 2 ^ 54 → ∃ d, GeneralisedPareto.new (fin μ) (fin s) (fin z) = .ok d ∧
      ∃ y, d.median.Is y ∧ gpdCDF μ s z y = 0) ∧
    (∀ (α : ℝ) (n : ℕ), Ordinary α → 55 ≤ n → n ≤ 1000 → ∃ d, Kumaraswamy.new (fin α) (fin (2 ^ n)) = .ok d ∧
      ∃ y, d.median.Is y ∧ kumaraswamyCDF α (2 ^ n) y = 0) ∧
    (∀ n : ℕ, 30 ≤ n → n ≤ 500 → ∃ d, InvNormal.new (fin (2 ^ n)) (fin 1) = .ok d ∧
      ∃ y m, d.modes = [y] ∧ IsMode (invNormalPDF (2 ^ n) 1) m ∧ ¬ RelClose y m (1 / 2)) ∧
    (∃ d, BetaDist.new (fin (1 + 1 / 2 ^ 52)) (fin (1 + 2 / 2 ^ 52)) = .ok d ∧ d.modes = [fin (1 / 4)] ∧
      IsMode (ProbabilityTheory.betaPDFReal (1 + 1 / 2 ^ 52) (1 + 2 / 2 ^ 52)) (1 / 3)) := by
  refine ⟨fun μ s z h1 h2 hs h0 h => ?_, fun α n hα h1 h2 => ?_, fun n h1 h2 => ?_, ?_⟩
  · refine ⟨_, GeneralisedPareto.new_ok.2 ⟨lt_of_pos hs (Is.fin _), lt_of_pos h0 (Is.fin _), rfl⟩, μ, gpd_median_lost h1 h2 h0 h, ?_⟩
    unfold gpdCDF; rw [if_pos le_rfl]
  · have α0 := hα.pos
    refine ⟨_, Kumaraswamy.new_ok.2 ⟨lt_of_pos α0 (Is.fin _), lt_of_pos (by positivity) (Is.fin _), rfl⟩, 0, ?_, ?_⟩
    · have g1 : 2 ^ (-60:ℤ) ≤ rnd (1 / α) := by
        rw [← rnd_two_pow (e := -60) (by norm_num)]
        refine rnd_mono ?_
        rw [zpow_neg, ← one_div]
        exact one_div_le_one_div_of_le α0 (by exact_mod_cast hα.2)
      have g2 : rnd (1 / α) ≤ 2 ^ (60:ℤ) := by
        rw [← rnd_two_pow (e := 60) (by norm_num)]
        refine rnd_mono ?_
        rw [div_le_iff₀ α0]
        have := hα.1
        rw [div_le_iff₀ (by positivity)] at this
        have e : (2:ℝ) ^ (60:ℤ) = 2 ^ 60 := by norm_num
        rw [e]; linarith
      refine kuma_median_lost n h1 h2 (lt_of_lt_of_le (by positivity) g1) (lt_of_le_of_lt g2 ?_) α0.ne'
      exact_mod_cast pow_lt_pow_right₀ (by norm_num : (1:ℝ) < 2) (by norm_num : 60 < 1024)
    · unfold kumaraswamyCDF
      rw [if_neg (lt_irrefl _), if_neg (by norm_num), Real.zero_rpow α0.ne', sub_zero, Real.one_rpow, sub_self]
  · obtain ⟨y, e, hy⟩ := invNormal_mode_lost n h1 h2
    have p : (0:ℝ) < 2 ^ n := by positivity
    refine ⟨_, InvNormal.new_ok.2 ⟨lt_of_pos p (Is.fin _), lt_of_pos one_pos (Is.fin _), rfl⟩, y, _, e, (invNormal_mode p one_pos _).2 rfl, ?_⟩
    refine not_close_zero hy (mul_pos p (sub_pos.2 (Real.lt_sqrt_of_sq_lt ?_)))
    simp only [div_one]
    nlinarith
  · refine ⟨_, BetaDist.new_ok.2 ⟨lt_of_pos (by norm_num) (Is.fin _), lt_of_pos (by norm_num) (Is.fin _), rfl⟩, beta_mode_lost, ?_⟩
    have := beta_mode (a := 1 + 1 / 2 ^ 52) (b := 1 + 2 / 2 ^ 52) (by norm_num) (by norm_num)
    norm_num at this ⊢
    exact this

/-- non-vacuity of C255: concrete parameters meeting the hypotheses, in binary64 -/
example : ∃ d, GeneralisedPareto.new (fin 3) (fin 2) (fin (1 / 4)) = .ok d ∧
    ∃ m, gpdCDF 3 2 (1 / 4) m = 1 / 2 ∧ ScaleClose d.median m (|(3:ℝ)| + |m - 3|) (1 / 2 ^ 40) :=
  ⟨_, GeneralisedPareto.new_ok.2 ⟨lt_of_pos (by norm_num) (Is.fin _), lt_of_pos (by norm_num) (Is.fin _), rfl⟩,
    C255_gpd (GeneralisedPareto.new_ok.2 ⟨lt_of_pos (by norm_num) (Is.fin _), lt_of_pos (by norm_num) (Is.fin _), rfl⟩) (Is.fin _) (Is.fin _) (Is.fin _)
      (by rw [abs_of_pos (by norm_num)]; exact le_trans (by norm_num) (pow_le_pow_right₀ (by norm_num : (1:ℝ) ≤ 2) (by norm_num : 2 ≤ 900))) ⟨by norm_num, by norm_num⟩ (by norm_num) (by norm_num)⟩
example : ∃ d, Gamma.new (fin 3) (fin 2) = .ok d ∧ ∃ y m, d.modes = .ok [y] ∧ IsMode (ProbabilityTheory.gammaPDFReal 3 2) m ∧ RelClose y m (1 / 2 ^ 40) :=
  ⟨_, Gamma.new_ok.2 ⟨lt_of_pos (by norm_num) (Is.fin _), lt_of_pos (by norm_num) (Is.fin _), rfl⟩,
    C255_gamma (Gamma.new_ok.2 ⟨lt_of_pos (by norm_num) (Is.fin _), lt_of_pos (by norm_num) (Is.fin _), rfl⟩) (Is.fin _) (Is.fin _)
      ⟨by norm_num, by norm_num⟩ ⟨by norm_num, by norm_num⟩⟩
example : ∃ d, BetaDist.new (fin 2) (fin 5) = .ok d ∧ ∃ y m, d.modes = [y] ∧ IsMode (ProbabilityTheory.betaPDFReal 2 5) m ∧ RelClose y m (1 / 2 ^ 40) :=
  ⟨_, BetaDist.new_ok.2 ⟨lt_of_pos (by norm_num) (Is.fin _), lt_of_pos (by norm_num) (Is.fin _), rfl⟩,
    C255_beta_partial (BetaDist.new_ok.2 ⟨lt_of_pos (by norm_num) (Is.fin _), lt_of_pos (by norm_num) (Is.fin _), rfl⟩) (Is.fin _) (Is.fin _)
      (by norm_num) (by norm_num) (by norm_num) (by norm_num)⟩
example : ∃ d, InvNormal.new (fin 1) (fin 4) = .ok d ∧ ∃ y m, d.modes = [y] ∧ IsMode (invNormalPDF 1 4) m ∧ RelClose y m (1 / 2 ^ 40) :=
  ⟨_, InvNormal.new_ok.2 ⟨lt_of_pos (by norm_num) (Is.fin _), lt_of_pos (by norm_num) (Is.fin _), rfl⟩,
    C255_inverse_normal_partial (InvNormal.new_ok.2 ⟨lt_of_pos (by norm_num) (Is.fin _), lt_of_pos (by norm_num) (Is.fin _), rfl⟩) (Is.fin _) (Is.fin _)
      ⟨by norm_num, by norm_num⟩ ⟨by norm_num, by norm_num⟩ (by norm_num)⟩
example : ∃ d, Kumaraswamy.new (fin 2) (fin 5) = .ok d ∧ ∃ m, kumaraswamyCDF 2 5 m = 1 / 2 ∧ RelClose d.median m (1 / 2 ^ 34) :=
  ⟨_, Kumaraswamy.new_ok.2 ⟨lt_of_pos (by norm_num) (Is.fin _), lt_of_pos (by norm_num) (Is.fin _), rfl⟩,
    C255_kumaraswamy_partial (Kumaraswamy.new_ok.2 ⟨lt_of_pos (by norm_num) (Is.fin _), lt_of_pos (by norm_num) (Is.fin _), rfl⟩) (Is.fin _) (Is.fin _)
      ⟨by norm_num, by norm_num⟩ (by norm_num) (by norm_num) (by norm_num)⟩

end
end Rstat
