import Verif.Props.FloatTail
import Verif.Props.FloatDensity2
import Verif.Props.FloatFit

/-! C275: log-densities. No univariate density except Erlang's overrides `log_pdf`: the default is the logarithm of the density. -/
set_option linter.unusedSectionVars false
namespace Rstat
open F64 Spec Consts

section
variable [FP] [FP.Lawful] [FP.Libm] [FP.Accurate] {a b c : F64} {s t m v l : ℝ}

/-- C275 (part): where a density accurate to `n` units is between `2^-k` and `2^k`, the default `log_pdf` is within `(2n + 2k + 3)/2^52` of
the log-density (see `C275_exponential_violated` and `C275_normal_violated` for smaller densities) -/
theorem C275_partial {F : F64 → F64} {f : ℝ → ℝ} {S : Set ℝ} {n k : ℕ} (hn : n ≤ 1000000) (hk : k ≤ 1000) (h : RelativePDF F f S (n / 2 ^ 52))
    (x l : F64) (r : ℝ) (hx : x.Is r) (hr : r ∈ S) (h1 : 1 / 2 ^ k ≤ f r) (h2 : f r ≤ 2 ^ k) (hl : (pdfPair (some F) none).RetB x l) :
    AbsClose l (Real.log (f r)) ((2 * n + 2 * k + 3) / 2 ^ 52) := by
  obtain ⟨f0, p, hp, he⟩ := h x r hx hr
  exact (C272_logarithms (X := F64) hk hn h1 h2 x [] l).1 F ⟨p, hp, by rwa [abs_of_pos f0]⟩ hl

/-- the square of the standardised argument, halved, and the normalising constant -/
theorem normal_parts {x : F64} {r : ℝ} (ha : a.Is m) (hb : b.Is v) (hx : x.Is r) (hv : Ordinary v) (hr : Ordinary |r - m|) :
    Rel (-((x - a) / b.sqrt) * ((x - a) / b.sqrt) / 2) (-((r - m) ^ 2 / (2 * v))) 247 8 ∧
    Rel (PI_2.sqrt * b.sqrt) (√(Real.pi * 2) * √v) 69 5 := by
  have v0 := hv.pos
  have rb := (Rel.ord hb hv).sqrt v0 (by norm_num) (by norm_num)
  have z := (Rel.sub (k := 60) hx ha hr.1 hr.2 (by norm_num)).div rb (by norm_num) (by norm_num)
  have e := (z.neg.mul z (by norm_num) (by norm_num)).div (Rel.num 2 (by norm_num)) (by norm_num) (by norm_num)
  have p2 : Rel PI_2 (Real.pi * 2) 9 2 := Rel.pi.mul (Rel.num 2 (by norm_num)) (by norm_num) (by norm_num)
  have q := (p2.sqrt (by positivity) (by norm_num) (by norm_num)).mul rb (by norm_num) (by norm_num)
  refine ⟨(e.congr ?_).mono (by norm_num) (by norm_num), q.mono (by norm_num) (by norm_num)⟩
  have : (r - m) ^ 2 / (2 * v) = ((r - m) / √v) * ((r - m) / √v) / 2 := by
    rw [div_mul_div_comm, Real.mul_self_sqrt v0.le]; ring
  rw [this]
  change -((r - m) / √v) * ((r - m) / √v) / 2 = _
  ring

/-- C275 (part): the normal density comes out to a relative `2^-42` up to about eleven standard deviations, so the default `log_pdf`
is accurate there -/
theorem C275_normal_partial {d : UvNormal} (h : UvNormal.new a b = .ok d) (ha : a.Is m) (hb : b.Is v) (hv : Ordinary v) :
    RelativePDF d.pdf (ProbabilityTheory.gaussianPDFReal m v.toNNReal) {x | Ordinary |x - m| ∧ (x - m) ^ 2 / (2 * v) ≤ 64} (1 / 2 ^ 41) := by
  obtain ⟨_, rfl⟩ := UvNormal.new_ok.1 h
  intro x r hx ⟨r1, r2⟩
  have v0 := hv.pos
  obtain ⟨e, q⟩ := normal_parts ha hb hx hv r1
  have e2 := e.exp 64 (by rw [abs_neg, abs_of_nonneg (by positivity)]; exact_mod_cast r2) (by norm_num) (by norm_num)
  have k := e2.div q (by norm_num) (by norm_num)
  have t : ProbabilityTheory.gaussianPDFReal m v.toNNReal r = Real.exp (-((r - m) ^ 2 / (2 * v))) / (√(Real.pi * 2) * √v) := by
    unfold ProbabilityTheory.gaussianPDFReal
    rw [Real.coe_toNNReal v v0.le, ← Real.sqrt_mul (by positivity), mul_comm Real.pi 2, neg_div]
    ring
  unfold UvNormal.pdf UvNormal.z
  dsimp only
  rw [t]
  exact k.rel (by positivity) (by norm_num)

end

section
open B64
attribute [local instance] binary64 binary64_lawful B64.libm B64.specialFns B64.accurate

/-- the exponential of anything not above -750 is zero in binary64 -/
theorem exp_under {z : F64} (hz : z ≤ fin (-750)) : z.exp.Is 0 := by
  have l3 := exp_mono hz
  have e : (fin (-750) : F64).exp.Is 0 := by
    rw [exp_fin (Is.fin _), show FP.fexp (-750) = Real.exp (-750) from rfl]
    have r : rnd (Real.exp (-750)) = 0 := by
      apply rnd_tiny_zero
      have l2 := Real.log_two_lt_d9
      rw [abs_of_pos (Real.exp_pos _), one_div, ← Real.exp_log (by positivity : (0:ℝ) < 2⁻¹ ^ 1075), Real.exp_le_exp, Real.log_pow, Real.log_inv]
      push_cast
      linarith
    have := F64.round_is (r := Real.exp (-750)) (show ¬ FP.huge (rnd _) by rw [r]; exact not_huge_zero)
    rwa [show FP.rnd (Real.exp (-750)) = 0 from r] at this
  rcases nonneg_cases (exp_nonneg (le_cases.1 hz).1) with hp | ⟨E', hE', E'0⟩
  · rw [hp] at l3
    obtain ⟨-, -, h3⟩ := le_cases.1 l3
    rcases h3 with h3 | h3 | ⟨r, -, h3, -⟩
    · cases h3
    · rw [h3] at e; rcases e with h3 | ⟨h3, -⟩ <;> cases h3
    · rcases h3 with h3 | ⟨h3, -⟩ <;> cases h3
  · rwa [le_antisymm ((hE'.le_iff e).1 l3) E'0] at hE'

theorem round_750 {t : ℝ} (h : 750 ≤ t) : F64.round (-t) ≤ fin (-750) := by
  have k : FP.rnd (750:ℝ) = 750 := by exact_mod_cast rnd_natCast 750 (by norm_num)
  have l1 : F64.round (-t) ≤ F64.round (-750) := round_mono (by linarith)
  have i : F64.round (-750) = fin (-750) := round_val (v := -750) ((FP.Lawful.rnd_neg 750).trans (by rw [k])) (by
    rw [abs_neg, abs_of_pos (by norm_num)]
    calc (750:ℝ) < 2 ^ 10 := by norm_num
      _ ≤ 2 ^ 1024 := pow_le_pow_right₀ (by norm_num) (by norm_num)) (by norm_num)
  rwa [i] at l1

/-- C275 in binary64: from `λ·x = 750` on the exponential density underflows, and the default `log_pdf` is `-inf` where the log-density is
`ln λ - λ·x`, a number of ordinary size -/
theorem C275_exponential_violated {a x : F64} {l r : ℝ} {d : Exponential} (h : Exponential.new a = .ok d) (ha : a.Is l) (hx : x.Is r)
    (ht : 750 ≤ l * r) : (pdfPair (some d.pdf) none).RetB x ninf ∧ Real.log (l * Real.exp (-(l * r))) = Real.log l - l * r ∧
    ∀ ε, ¬ AbsClose ninf (Real.log l - l * r) ε := by
  obtain ⟨h0, rfl⟩ := Exponential.new_ok.1 h
  have hl := pos_of_lt h0 ha
  have e := mul_fin_ext ha.neg hx
  rw [neg_mul] at e
  have z := exp_under (le_congr e.symm rfl (round_750 ht))
  refine ⟨?_, ?_, ?_⟩
  · rw [(pdfPair (some (Exponential.pdf ⟨a⟩)) none).retB_iff_dflt rfl rfl]
    exact (ln_zero (mul_zero_is z ha)).symm
  · rw [Real.log_mul hl.ne' (Real.exp_pos _).ne', Real.log_exp]; ring
  · rintro ε ⟨y, hy, -⟩
    rcases hy with hy | ⟨hy, -⟩ <;> cases hy

/-- C275 in binary64: from 39 standard deviations on (`(x - μ)²/(2σ²) ≥ 751`) the normal density underflows, and the default `log_pdf` is
`-inf` -/
theorem C275_normal_violated {a b x : F64} {m v r : ℝ} {d : UvNormal} (h : UvNormal.new a b = .ok d) (ha : a.Is m) (hb : b.Is v) (hx : x.Is r)
    (hv : Ordinary v) (hr : Ordinary |r - m|) (ht : 751 ≤ (r - m) ^ 2 / (2 * v)) :
    (pdfPair (some d.pdf) none).RetB x ninf ∧
    Real.log (ProbabilityTheory.gaussianPDFReal m v.toNNReal r) = -Real.log (√(2 * Real.pi * v)) - (r - m) ^ 2 / (2 * v) ∧
    ∀ t ε, ¬ AbsClose ninf t ε := by
  obtain ⟨_, rfl⟩ := UvNormal.new_ok.1 h
  have v0 := hv.pos
  obtain ⟨⟨-, -, y, hy, hye⟩, ⟨n1, -, N, hN, hNe⟩⟩ := normal_parts ha hb hx hv hr
  set t := (r - m) ^ 2 / (2 * v) with ht'
  rw [abs_neg, abs_of_pos (show 0 < t by linarith)] at hye
  have y1 : y ≤ -750 := by
    have := (abs_le.1 hye).2
    norm_num at this
    linarith
  have z := exp_under ((hy.le_iff (Is.fin (-750))).2 y1)
  have N0 : N ≠ 0 := by
    rintro rfl
    have n0 : 0 < |√(Real.pi * 2) * √v| := lt_of_lt_of_le (by positivity) n1
    rw [zero_sub, abs_neg] at hNe
    norm_num at hNe
    norm_num at n0
    nlinarith
  refine ⟨?_, ?_, ?_⟩
  · rw [(pdfPair (some (UvNormal.pdf ⟨a, b⟩)) none).retB_iff_dflt rfl rfl]
    exact (ln_zero (zero_div_val z hN N0)).symm
  · unfold ProbabilityTheory.gaussianPDFReal
    rw [Real.coe_toNNReal v v0.le, Real.log_mul (by positivity) (Real.exp_pos _).ne', Real.log_exp, Real.log_inv, ht']; ring
  · rintro t ε ⟨y, hy, -⟩
    rcases hy with hy | ⟨hy, -⟩ <;> cases hy

/-- the full claim: the default `log_pdf` is accurate where the log-density is an ordinary number -/
def C275_full : Prop := ∀ (a : F64) (l : ℝ) (d : Exponential), Exponential.new a = .ok d → a.Is l → Ordinary l →
  ∀ (x y : F64) (r : ℝ), x.Is r → Ordinary r → (pdfPair (some d.pdf) none).RetB x y → AbsClose y (Real.log l - l * r) (1 + l * r)

/-- C275: the full claim fails in binary64 -/
theorem C275_violated : ¬ C275_full := by
  intro H
  have hd : Exponential.new (fin 1) = .ok ⟨fin 1⟩ := Exponential.new_ok.2 ⟨lt_of_pos (by norm_num) (.fin _), rfl⟩
  obtain ⟨k1, -, k3⟩ := C275_exponential_violated hd (.fin 1) (.fin 800) (by norm_num)
  exact k3 _ (H _ _ _ hd (.fin 1) (by unfold Ordinary; norm_num) _ _ _ (.fin 800) (by unfold Ordinary; norm_num) k1)

/-- the standard normal density at 10 -/
theorem gauss_ten : 1 / 2 ^ 80 ≤ ProbabilityTheory.gaussianPDFReal 0 (1:ℝ).toNNReal 10 ∧ ProbabilityTheory.gaussianPDFReal 0 (1:ℝ).toNNReal 10 ≤ 1 := by
  unfold ProbabilityTheory.gaussianPDFReal
  rw [Real.coe_toNNReal 1 zero_le_one, mul_one, mul_one, sub_zero, show -(10:ℝ) ^ 2 / 2 = -50 by norm_num]
  have p1 := Real.pi_lt_d2
  have p2 := Real.pi_gt_three
  have q1 : √(2 * Real.pi) ≤ 4 := Real.sqrt_le_iff.2 ⟨by norm_num, by linarith⟩
  have q2 : 1 ≤ √(2 * Real.pi) := Real.one_le_sqrt.2 (by linarith)
  have e1 : 1 / 2 ^ 73 ≤ Real.exp (-50) := by
    have l2 := Real.log_two_gt_d9
    rw [← Real.exp_log (by positivity : (0:ℝ) < 1 / 2 ^ 73), Real.exp_le_exp, one_div, Real.log_inv, Real.log_pow]
    push_cast; linarith
  have e2 : Real.exp (-50) ≤ 1 := Real.exp_le_one_iff.2 (by norm_num)
  constructor
  · calc (1:ℝ) / 2 ^ 80 ≤ 4⁻¹ * (1 / 2 ^ 73) := by norm_num
      _ ≤ _ := by gcongr
  · calc _ ≤ (1:ℝ)⁻¹ * 1 := by gcongr
      _ = 1 := by norm_num

/-! ### the hypotheses are met -/
example : ∃ d, UvNormal.new 0 (fin 1) = .ok d ∧ (pdfPair (some d.pdf) none).RetB (fin 40) ninf := by
  obtain ⟨d, hd⟩ : ∃ d, UvNormal.new 0 (fin 1) = .ok d := ⟨_, UvNormal.new_ok.2 ⟨lt_of_pos (by norm_num) (.fin _), rfl⟩⟩
  exact ⟨d, hd, (C275_normal_violated hd Is.zero (.fin 1) (.fin 40) (by unfold Ordinary; norm_num) (by unfold Ordinary; norm_num)
    (by norm_num)).1⟩
example : ∃ d, UvNormal.new 0 (fin 1) = .ok d ∧ ∀ l, (pdfPair (some d.pdf) none).RetB (fin 10) l →
    AbsClose l (Real.log (ProbabilityTheory.gaussianPDFReal 0 (1:ℝ).toNNReal 10)) ((2 * (2048:ℕ) + 2 * (128:ℕ) + 3) / 2 ^ 52) := by
  obtain ⟨d, hd⟩ : ∃ d, UvNormal.new 0 (fin 1) = .ok d := ⟨_, UvNormal.new_ok.2 ⟨lt_of_pos (by norm_num) (.fin _), rfl⟩⟩
  have k := C275_normal_partial hd Is.zero (.fin 1) (by unfold Ordinary; norm_num)
  refine ⟨d, hd, fun l hl => C275_partial (n := 2048) (k := 128) (by norm_num) (by norm_num) (by norm_num at k ⊢; exact k) (fin 10) l 10 (.fin 10) ?_ ?_ ?_ hl⟩
  · change Ordinary _ ∧ _; unfold Ordinary; norm_num
  · have t := gauss_ten
    exact le_trans (by norm_num) t.1
  · exact gauss_ten.2.trans (one_le_pow₀ (by norm_num))

end
end Rstat
