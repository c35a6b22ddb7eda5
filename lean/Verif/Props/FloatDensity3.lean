import Verif.Spec.FloatRelPDF
import Verif.Lemmas.FloatRel6
import Verif.Props.FloatMoments2
import Verif.Props.Dist.Pareto
import Verif.Props.Dist.Rayleigh
import Verif.Props.Dist.Weibull
import Verif.Props.Dist.Frechet
import Verif.Props.Dist.Kumaraswamy
import Verif.Props.Dist.Levy
import Verif.Props.Dist.InvNormal
import Verif.Props.Dist.GEV

/-! C269: relative accuracy of floating-point densities on arguments and parameters of ordinary size. -/
set_option linter.unusedSectionVars false
namespace Rstat
open F64 Spec Consts
section
variable [FP] [FP.Lawful] [FP.Libm] [FP.Accurate] {a b c : F64} {s t m l : ℝ}

theorem Rel.rel {k n : ℕ} (h : Rel a t k n) (t0 : 0 < t) {ε : ℝ} (hn : (n:ℝ) / 2 ^ 52 ≤ ε) : 0 < t ∧ ∃ p, a.Is p ∧ |p - t| ≤ ε * t := by
  obtain ⟨_, _, y, hy, he⟩ := h
  rw [abs_of_pos t0] at he
  exact ⟨t0, y, hy, he.trans (by gcongr)⟩

theorem Rel.zof {x : F64} {r : ℝ} (hx : x.Is r) (h1 : 1 / 2 ^ 60 ≤ |r|) (h2 : |r| ≤ 2 ^ 60) : Rel x r 60 0 := Rel.exact hx h1 h2

/-- C269 (Pareto): `a x_m^a / x^(a+1)` to a relative `2^-43` -/
theorem C269_pareto {d : Pareto} (h : Pareto.new a b = .ok d) (ha : a.Is m) (hb : b.Is s) (hm : Ordinary m) (hs : Ordinary s)
    (hL : |s * Real.log m| ≤ 128) :
    RelativePDF d.pdf (paretoPDF m s) {x | m ≤ x ∧ Ordinary x ∧ |(s + 1) * Real.log x| ≤ 128} (1 / 2 ^ 43) := by
  obtain ⟨_, rfl⟩ := Pareto.new_ok.1 h
  intro x r hx ⟨r1, r2, r3⟩
  have s0 := hs.pos; have m0 := hm.pos; have r0 := r2.pos
  unfold Pareto.pdf paretoPDF; dsimp only
  rw [if_neg (fun g => absurd ((hx.lt_iff ha).1 g) (not_lt.2 r1)), if_neg (not_lt.2 r1)]
  have rs := Rel.ord hb hs
  have rs1 := rs.add (Rel.one.mono (k' := 60) (by norm_num) le_rfl) s0 one_pos (by norm_num) (by norm_num)
  have P1 : |s| ≤ ((2 ^ 61 : ℕ) : ℝ) := by rw [abs_of_pos s0]; refine hs.2.trans ?_; norm_num
  have P2 : |s + 1| ≤ ((2 ^ 61 : ℕ) : ℝ) := by
    rw [abs_of_pos (by positivity)]
    have := hs.2
    norm_num at this ⊢; linarith
  have p1 := (Rel.ord ha hm).powf 128 (2 ^ 61) rs m0 (by exact_mod_cast hL) P1 (by norm_num) (by norm_num) (by norm_num) (by norm_num)
  have p2 := (Rel.ord hx r2).powf 128 (2 ^ 61) rs1 r0 (by exact_mod_cast r3) P2 (by norm_num) (by norm_num) (by norm_num) (by norm_num)
  have q := ((rs.mul p1 (by norm_num) (by norm_num)).div p2 (by norm_num) (by norm_num)).congr
    (show s * m ^ s / r ^ (s + 1) = s * m ^ s * r ^ (-(s + 1)) by rw [Real.rpow_neg r0.le, div_eq_mul_inv])
  exact q.rel (by positivity) (by norm_num)

/-- C269 (Rayleigh): `x / s² exp(-x²/(2 s²))` to a relative `2^-42` -/
theorem C269_rayleigh {d : Rayleigh} (h : Rayleigh.new a = .ok d) (ha : a.Is s) (hs : Ordinary s) :
    RelativePDF d.pdf (rayleighPDF s) {x | Ordinary x ∧ x ^ 2 / (2 * s ^ 2) ≤ 64} (1 / 2 ^ 42) := by
  obtain ⟨_, rfl⟩ := Rayleigh.new_ok.1 h
  intro x r hx ⟨r2, r3⟩
  have s0 := hs.pos; have r0 := r2.pos
  unfold Rayleigh.pdf rayleighPDF; dsimp only
  rw [if_neg (not_le.2 r0)]
  have ra := Rel.ord ha hs
  have rx := Rel.ord hx r2
  have s2 := ra.mul ra (by norm_num) (by norm_num)
  have arg := (((rx.neg.mul rx (by norm_num) (by norm_num)).div s2 (by norm_num) (by norm_num)).div (Rel.num 2 (by norm_num)) (by norm_num)
    (by norm_num)).congr (show -r * r / (s * s) / 2 = -r ^ 2 / (2 * s ^ 2) by field_simp)
  have e := arg.exp 64 (by rw [abs_div, abs_neg, abs_of_pos (by positivity), abs_of_pos (by positivity)]; exact_mod_cast r3) (by norm_num) (by norm_num)
  have q := ((rx.div s2 (by norm_num) (by norm_num)).mul e (by norm_num) (by norm_num)).congr
    (show r / (s * s) * Real.exp (-r ^ 2 / (2 * s ^ 2)) = r / s ^ 2 * Real.exp (-r ^ 2 / (2 * s ^ 2)) by rw [sq s])
  exact q.rel (by positivity) (by norm_num)

/-- C269 (Weibull, shapes up to 64 other than 1): to a relative `2^-35` -/
theorem C269_weibull {d : Weibull} (h : Weibull.new a b = .ok d) (ha : a.Is l) (hb : b.Is s) (hl : Ordinary l) (hs : Ordinary s) (hs2 : s ≤ 64)
    (hs1 : 1 / 2 ^ 60 ≤ |s - 1|) :
    RelativePDF d.pdf (weibullPDF l s) {x | Ordinary x ∧ |s * Real.log (x / l)| ≤ 64 ∧ |(s - 1) * Real.log (x / l)| ≤ 64 ∧ (x / l) ^ s ≤ 64}
      (1 / 2 ^ 35) := by
  obtain ⟨_, _, rfl⟩ := Weibull.new_ok.1 h
  intro x r hx ⟨r2, r3, r4, r5⟩
  have s0 := hs.pos; have r0 := r2.pos; have l0 := hl.pos
  unfold Weibull.pdf weibullPDF; dsimp only
  rw [if_pos (show (0 : F64) ≤ x from (Is.fin (0:ℝ)).le_iff hx |>.2 r0.le), if_neg (not_le.2 r0)]
  have ra := Rel.ord ha hl
  have rb := Rel.ord hb hs
  have rx := Rel.ord hx r2
  have xol := rx.div ra (by norm_num) (by norm_num)
  have q0 : 0 < r / l := by positivity
  have s64 : |s - 1| ≤ 64 := by rw [abs_le]; constructor <;> linarith
  have k1 : Rel (b - 1) (s - 1) 60 1 := Rel.sub hb Is.one hs1 (s64.trans (by norm_num)) (by norm_num)
  have p1 := xol.powf 64 64 k1 q0 (by exact_mod_cast r4) (by exact_mod_cast s64) (by norm_num) (by norm_num) (by norm_num) (by norm_num)
  have p2 := xol.powf 64 64 rb q0 (by exact_mod_cast r3) (by rw [abs_of_pos s0]; exact_mod_cast hs2) (by norm_num) (by norm_num) (by norm_num) (by norm_num)
  have pp : 0 < (r / l) ^ s := Real.rpow_pos_of_pos q0 s
  have e := p2.neg.exp 64 (by rw [abs_neg, abs_of_pos pp]; exact_mod_cast r5) (by norm_num) (by norm_num)
  have q := ((rb.div ra (by norm_num) (by norm_num)).mul p1 (by norm_num) (by norm_num)).mul e (by norm_num) (by norm_num)
  exact q.rel (by positivity) (by norm_num)

/-- C269 (Fréchet, shapes up to 63): to a relative `2^-42` -/
theorem C269_frechet {d : Frechet} (h : Frechet.new a = .ok d) (ha : a.Is s) (hs : Ordinary s) (hs2 : s ≤ 63) :
    RelativePDF d.pdf (frechetPDF s) {x | Ordinary x ∧ |(-1 - s) * Real.log x| ≤ 64 ∧ |-s * Real.log x| ≤ 64 ∧ x ^ (-s) ≤ 64} (1 / 2 ^ 42) := by
  obtain ⟨_, rfl⟩ := Frechet.new_ok.1 h
  intro x r hx ⟨r2, r3, r4, r5⟩
  have s0 := hs.pos; have r0 := r2.pos
  unfold Frechet.pdf frechetPDF Frechet.cdf Probability.newUnchecked Probability.unwrap; dsimp only
  rw [if_neg (not_le.2 r0)]
  have ra := Rel.ord ha hs
  have rx := Rel.ord hx r2
  have a1 : |-1 - s| = s + 1 := by rw [show -1 - s = -(s + 1) by ring, abs_neg, abs_of_pos (by positivity)]
  have k1 : Rel (fin (-1) - a) (-1 - s) 60 1 := Rel.sub (Is.fin (-1)) ha (by rw [a1]; norm_num; linarith) (by rw [a1]; norm_num; linarith) (by norm_num)
  have p1 := rx.powf 64 64 k1 r0 (by exact_mod_cast r3) (by rw [a1]; push_cast; linarith) (by norm_num) (by norm_num) (by norm_num) (by norm_num)
  have p2 := rx.powf 64 64 ra.neg r0 (by exact_mod_cast r4) (by rw [abs_neg, abs_of_pos s0]; push_cast; linarith) (by norm_num) (by norm_num) (by norm_num)
    (by norm_num)
  have pp : 0 < r ^ (-s) := Real.rpow_pos_of_pos r0 _
  have e := p2.neg.exp 64 (by rw [abs_neg, abs_of_pos pp]; exact_mod_cast r5) (by norm_num) (by norm_num)
  have q := (ra.mul p1 (by norm_num) (by norm_num)).mul e (by norm_num) (by norm_num)
  exact q.rel (by positivity) (by norm_num)

/-- C269 (Kumaraswamy, second shape up to 64, shapes other than 1, arguments with `x^a ≤ 1/2`): to a relative `2^-39` -/
theorem C269_kumaraswamy {d : Kumaraswamy} (h : Kumaraswamy.new a b = .ok d) (ha : a.Is s) (hb : b.Is t) (hs : Ordinary s) (ht : Ordinary t)
    (ht2 : t ≤ 64) (hs1 : Ordinary |s - 1|) (ht1 : 1 / 2 ^ 60 ≤ |t - 1|) :
    RelativePDF d.pdf (kumaraswamyPDF s t) {x | Ordinary x ∧ x < 1 ∧ |s * Real.log x| ≤ 64 ∧ |(s - 1) * Real.log x| ≤ 64 ∧ x ^ s ≤ 1 / 2} (1 / 2 ^ 39) := by
  obtain ⟨_, _, rfl⟩ := Kumaraswamy.new_ok.1 h
  intro x r hx ⟨r2, r1, r3, r4, r5⟩
  have s0 := hs.pos; have r0 := r2.pos; have t0 := ht.pos
  unfold Kumaraswamy.pdf kumaraswamyPDF; dsimp only
  rw [if_neg (by push Not; exact ⟨r0, r1⟩)]
  have ra := Rel.ord ha hs
  have rb := Rel.ord hb ht
  have rx := Rel.ord hx r2
  have k1 : Rel (a - 1) (s - 1) 60 1 := Rel.sub ha Is.one hs1.1 hs1.2 (by norm_num)
  have t64 : |t - 1| ≤ 64 := by rw [abs_le]; constructor <;> linarith
  have k2 : Rel (b - 1) (t - 1) 60 1 := Rel.sub hb Is.one ht1 (t64.trans (by norm_num)) (by norm_num)
  have P1 : |s - 1| ≤ ((2 ^ 60 : ℕ) : ℝ) := by refine hs1.2.trans ?_; norm_num
  have P2 : |s| ≤ ((2 ^ 60 : ℕ) : ℝ) := by rw [abs_of_pos s0]; refine hs.2.trans ?_; norm_num
  have p1 := rx.powf 64 (2 ^ 60) k1 r0 (by exact_mod_cast r4) P1 (by norm_num) (by norm_num) (by norm_num) (by norm_num)
  have p2 := rx.powf 64 (2 ^ 60) ra r0 (by exact_mod_cast r3) P2 (by norm_num) (by norm_num) (by norm_num) (by norm_num)
  have pp : 0 < r ^ s := Real.rpow_pos_of_pos r0 _
  have u0 : 0 < 1 - r ^ s := by linarith
  have w := Rel.sub_amp (k := 1) 3 (Rel.one.mono (k' := 128) (n' := 3) (by norm_num) (by norm_num)) (p2.mono (k' := 128) (n' := 3) (by norm_num) (by norm_num))
    (by rw [abs_of_pos u0]; norm_num; linarith) (by rw [abs_of_pos u0]; norm_num; linarith)
    (by rw [abs_of_pos u0, abs_of_pos pp, abs_one]; push_cast; linarith) (by norm_num) (by norm_num)
  have lg : |Real.log (1 - r ^ s)| ≤ 1 := by
    have h1 := Real.log_le_log (by norm_num) (show (1 / 2 : ℝ) ≤ 1 - r ^ s by linarith)
    rw [one_div, Real.log_inv] at h1
    have h2 := Real.log_nonpos u0.le (by linarith : 1 - r ^ s ≤ 1)
    have := Real.log_two_lt_d9
    rw [abs_le]; constructor <;> linarith
  have p3 := w.powf 64 64 k2 u0 (by
      rw [abs_mul]
      calc |t - 1| * |Real.log (1 - r ^ s)| ≤ 64 * 1 := by gcongr
        _ = _ := by norm_num) (by exact_mod_cast t64) (by norm_num) (by norm_num) (by norm_num) (by norm_num)
  have q := ((ra.mul rb (by norm_num) (by norm_num)).mul p1 (by norm_num) (by norm_num)).mul p3 (by norm_num) (by norm_num)
  exact q.rel (by positivity) (by norm_num)

theorem log_ord {x : ℝ} (h : Ordinary x) : |Real.log x| ≤ 42 := by
  have l2 := Real.log_two_lt_d9
  have h0 : |Real.log ((2:ℝ) ^ 60)| ≤ 42 := by rw [Real.log_pow, abs_of_pos (by have := Real.log_pos one_lt_two; positivity)]; push_cast; linarith
  have h1 := Real.log_le_log (by positivity) h.1
  have h2 := Real.log_le_log h.pos h.2
  rw [one_div, Real.log_inv] at h1
  obtain ⟨h3, h4⟩ := abs_le.1 h0
  rw [abs_le]; constructor <;> linarith

/-- C269 (Lévy): to a relative `2^-42` -/
theorem C269_levy {d : Levy} (h : Levy.new a b = .ok d) (ha : a.Is m) (hb : b.Is s) (hs : Ordinary s) :
    RelativePDF d.pdf (levyPDF m s) {x | Ordinary (x - m) ∧ s / (2 * (x - m)) ≤ 64} (1 / 2 ^ 42) := by
  obtain ⟨_, rfl⟩ := Levy.new_ok.1 h
  intro x r hx ⟨r2, r3⟩
  have s0 := hs.pos; have r0 := r2.pos
  have pi := Real.pi_pos
  unfold Levy.pdf levyPDF; dsimp only
  rw [if_neg (not_le.2 (sub_pos.1 r0))]
  have rb := Rel.ord hb hs
  have df := Rel.sub_ord hx ha r2
  have c2 := rb.div (Rel.num 2 (by norm_num)) (by norm_num) (by norm_num)
  have f1 := (c2.div Rel.pi (by norm_num) (by norm_num)).sqrt (by positivity) (by norm_num) (by norm_num)
  have arg := c2.neg.div df (by norm_num) (by norm_num)
  have e := arg.exp 64 (by
    rw [abs_div, abs_neg, abs_of_pos (by positivity), abs_of_pos r0, div_div]; exact_mod_cast r3) (by norm_num) (by norm_num)
  have th : Rel THREE_HALVES (3 / 2) 14 1 := (Rel.num 3 (by norm_num)).div (Rel.num 2 (by norm_num)) (by norm_num) (by norm_num)
  have lg := log_ord r2
  have p := df.powf 64 2 th r0 (by
    rw [abs_mul, abs_of_pos (by norm_num : (0:ℝ) < 3 / 2)]; push_cast; linarith) (by norm_num [abs_of_pos]) (by norm_num) (by norm_num) (by norm_num) (by norm_num)
  have pp := Real.rpow_pos_of_pos r0 (3 / 2)
  have q := ((f1.mul e (by norm_num) (by norm_num)).div p (by norm_num) (by norm_num)).congr
    (show √(s / 2 / Real.pi) * Real.exp (-(s / 2) / (r - m)) / (r - m) ^ (3 / 2 : ℝ) =
      √(s / (2 * Real.pi)) * Real.exp (-s / (2 * (r - m))) / (r - m) ^ (3 / 2 : ℝ) by rw [div_div, ← neg_div, div_div])
  exact q.rel (by positivity) (by norm_num)

/-- C269 (inverse normal): to a relative `2^-41` -/
theorem C269_inverse_normal {d : InvNormal} (h : InvNormal.new a b = .ok d) (ha : a.Is m) (hb : b.Is s) (hm : Ordinary m) (hs : Ordinary s) :
    RelativePDF d.pdf (invNormalPDF m s) {x | Ordinary x ∧ Ordinary |x - m| ∧ s * (x - m) ^ 2 / (2 * m ^ 2 * x) ≤ 64} (1 / 2 ^ 41) := by
  obtain ⟨_, _, rfl⟩ := InvNormal.new_ok.1 h
  intro x r hx ⟨r1, r2, r3⟩
  have s0 := hs.pos; have r0 := r1.pos; have m0 := hm.pos; have d0 := r2.pos
  have pi := Real.pi_pos
  unfold InvNormal.pdf invNormalPDF; dsimp only
  rw [if_neg (not_le.2 r0)]
  have ra := Rel.ord ha hm
  have rb := Rel.ord hb hs
  have rx := Rel.ord hx r1
  have df : Rel (x - a) (r - m) 60 1 := Rel.sub hx ha r2.1 r2.2 (by norm_num)
  have p2 : Rel PI_2 (Real.pi * 2) 9 2 := Rel.pi.mul (Rel.num 2 (by norm_num)) (by norm_num) (by norm_num)
  have z := ((((rb.div p2 (by norm_num) (by norm_num)).div rx (by norm_num) (by norm_num)).div rx (by norm_num) (by norm_num)).div rx (by norm_num)
    (by norm_num)).sqrt (by positivity) (by norm_num) (by norm_num)
  have arg := ((((((rb.neg.mul df (by norm_num) (by norm_num)).mul df (by norm_num) (by norm_num)).div (Rel.num 2 (by norm_num)) (by norm_num)
    (by norm_num)).div ra (by norm_num) (by norm_num)).div ra (by norm_num) (by norm_num)).div rx (by norm_num) (by norm_num)).congr
    (show -s * (r - m) * (r - m) / 2 / m / m / r = -s * (r - m) ^ 2 / (2 * m ^ 2 * r) by field_simp)
  have e := arg.exp 64 (by
    rw [abs_div, neg_mul, abs_neg, abs_of_nonneg (by positivity), abs_of_pos (by positivity)]; exact_mod_cast r3) (by norm_num) (by norm_num)
  have q := (z.mul e (by norm_num) (by norm_num)).congr
    (show √(s / (Real.pi * 2) / r / r / r) * Real.exp (-s * (r - m) ^ 2 / (2 * m ^ 2 * r)) =
      √(s / (2 * Real.pi * r ^ 3)) * Real.exp (-s * (r - m) ^ 2 / (2 * m ^ 2 * r)) by
        congr 2; field_simp)
  exact q.rel (by positivity) (by norm_num)

/-- C269 (generalised Pareto, shapes from 1/32): to a relative `2^-39` -/
theorem C269_gpd {ζ : ℝ} {d : GeneralisedPareto} (h : GeneralisedPareto.new a b c = .ok d) (ha : a.Is m) (hb : b.Is s) (hc : c.Is ζ) (hs : Ordinary s)
    (hz : Ordinary ζ) (hz1 : 1 / 32 ≤ ζ) :
    RelativePDF d.pdf (gpdPDF m s ζ) {x | Ordinary (x - m) ∧ |(-1 / ζ - 1) * Real.log (1 + ζ * ((x - m) / s))| ≤ 64} (1 / 2 ^ 39) := by
  obtain ⟨_, _, rfl⟩ := GeneralisedPareto.new_ok.1 h
  intro x r hx ⟨r2, r3⟩
  have s0 := hs.pos; have r0 := r2.pos; have z0 := hz.pos
  unfold GeneralisedPareto.pdf gpdPDF; dsimp only
  rw [if_neg (not_lt.2 (sub_pos.1 r0).le)]
  have rb := Rel.ord hb hs
  have rc := Rel.ord hc hz
  have z := (Rel.sub_ord hx ha r2).div rb (by norm_num) (by norm_num)
  have zz := rc.mul z (by norm_num) (by norm_num)
  have q0 : 0 < ζ * ((r - m) / s) := by positivity
  have w := (Rel.one.mono (k' := 180) (n' := 3) (by norm_num) (by norm_num)).add (zz.mono (k' := 180) (n' := 3) (by norm_num) (by norm_num)) one_pos q0
    (by norm_num) (by norm_num)
  have n1 : Rel (fin (-1)) (-1) 7 0 := Rel.exact (Is.fin (-1)) (by norm_num) (by norm_num)
  have inv : 1 / ζ ≤ 32 := by rw [div_le_iff₀ z0]; linarith
  have inv0 : 0 < 1 / ζ := by positivity
  have a1 : |-1 / ζ - 1| = 1 / ζ + 1 := by rw [show -1 / ζ - 1 = -(1 / ζ + 1) by ring, abs_neg, abs_of_pos (by positivity)]
  have ex := Rel.sub_amp (k := 7) 1 (n1.div rc (by norm_num) (by norm_num)) (Rel.one.mono (k' := 67) (n' := 1) (by norm_num) (by norm_num))
    (by rw [a1]; have : (1:ℝ) / 2 ^ 7 ≤ 1 := by norm_num
        linarith) (by rw [a1]; have : (33:ℝ) ≤ 2 ^ 7 := by norm_num
                      linarith)
    (by rw [a1, abs_one, neg_div, abs_neg, abs_of_pos inv0]; push_cast; linarith) (by norm_num) (by norm_num)
  have p := w.powf 64 64 ex (by positivity) (by exact_mod_cast r3) (by rw [a1]; push_cast; linarith) (by norm_num) (by norm_num) (by norm_num) (by norm_num)
  have q := (p.div rb (by norm_num) (by norm_num)).congr
    (show (1 + ζ * ((r - m) / s)) ^ (-1 / ζ - 1) / s = (1 + ζ * ((r - m) / s)) ^ (-(1 / ζ + 1)) / s by congr 2; ring)
  exact q.rel (by positivity) (by norm_num)
end

section
open B64
attribute [local instance] binary64 binary64_lawful B64.libm B64.specialFns B64.accurate

theorem ord_of {x : ℝ} (h1 : 1 / 64 ≤ x) (h2 : x ≤ 64) : Ordinary x := ⟨le_trans (by norm_num) h1, h2.trans (by norm_num)⟩
theorem log_le_two {x : ℝ} (h1 : 1 / 2 ≤ x) (h2 : x ≤ 2) : |Real.log x| ≤ 1 := by
  have l2 := Real.log_two_lt_d9
  have a := Real.log_le_log (by norm_num) h1
  have b := Real.log_le_log (by linarith) h2
  rw [one_div, Real.log_inv] at a
  rw [abs_le]; constructor <;> linarith

example : ∃ p, (Pareto.pdf ⟨fin 1, fin 3⟩ (fin 2)).Is p ∧ |p - paretoPDF 1 3 2| ≤ 1 / 2 ^ 43 * paretoPDF 1 3 2 := by
  have lg := log_le_two (x := 2) (by norm_num) le_rfl
  exact ((C269_pareto (m := 1) (s := 3) (Pareto.new_ok.2 ⟨lt_of_pos (by norm_num) (Is.fin _), rfl⟩) (Is.fin 1) (Is.fin 3) (ord_of (by norm_num) (by norm_num))
    (ord_of (by norm_num) (by norm_num)) (by norm_num)) (fin 2) 2 (Is.fin 2) ⟨by norm_num, ord_of (by norm_num) (by norm_num), by
      rw [abs_mul]; norm_num at lg ⊢; linarith⟩).2
example : ∃ p, (Rayleigh.pdf ⟨fin 3⟩ (fin 2)).Is p ∧ |p - rayleighPDF 3 2| ≤ 1 / 2 ^ 42 * rayleighPDF 3 2 :=
  ((C269_rayleigh (s := 3) (Rayleigh.new_ok.2 ⟨lt_of_pos (by norm_num) (Is.fin _), rfl⟩) (Is.fin 3) (ord_of (by norm_num) (by norm_num))) (fin 2) 2 (Is.fin 2)
    ⟨ord_of (by norm_num) (by norm_num), by norm_num⟩).2
example : ∃ p, (Weibull.pdf ⟨fin 1, fin 2⟩ (fin 2)).Is p ∧ |p - weibullPDF 1 2 2| ≤ 1 / 2 ^ 35 * weibullPDF 1 2 2 := by
  have lg := log_le_two (x := 2) (by norm_num) le_rfl
  exact ((C269_weibull (l := 1) (s := 2) (Weibull.new_ok.2 ⟨lt_of_pos (by norm_num) (Is.fin _), lt_of_pos (by norm_num) (Is.fin _), rfl⟩) (Is.fin 1) (Is.fin 2)
    (ord_of (by norm_num) (by norm_num)) (ord_of (by norm_num) (by norm_num)) (by norm_num) (by norm_num)) (fin 2) 2 (Is.fin 2)
    ⟨ord_of (by norm_num) (by norm_num), by rw [div_one, abs_mul]; norm_num at lg ⊢; linarith, by rw [div_one, abs_mul]; norm_num at lg ⊢; linarith,
      by norm_num⟩).2
example : ∃ p, (Frechet.pdf ⟨fin 2⟩ (fin 2)).Is p ∧ |p - frechetPDF 2 2| ≤ 1 / 2 ^ 42 * frechetPDF 2 2 := by
  have lg := log_le_two (x := 2) (by norm_num) le_rfl
  exact ((C269_frechet (s := 2) (Frechet.new_ok.2 ⟨lt_of_pos (by norm_num) (Is.fin _), rfl⟩) (Is.fin 2) (ord_of (by norm_num) (by norm_num)) (by norm_num))
    (fin 2) 2 (Is.fin 2) ⟨ord_of (by norm_num) (by norm_num), by rw [abs_mul]; norm_num at lg ⊢; linarith, by rw [abs_mul]; norm_num at lg ⊢; linarith,
      by rw [Real.rpow_neg (by norm_num)]; norm_num⟩).2
example : ∃ p, (Kumaraswamy.pdf ⟨fin 3, fin 2⟩ (fin (1 / 2))).Is p ∧ |p - kumaraswamyPDF 3 2 (1 / 2)| ≤ 1 / 2 ^ 39 * kumaraswamyPDF 3 2 (1 / 2) := by
  have lg := log_le_two (x := 1 / 2) le_rfl (by norm_num)
  exact ((C269_kumaraswamy (s := 3) (t := 2) (Kumaraswamy.new_ok.2 ⟨lt_of_pos (by norm_num) (Is.fin _), lt_of_pos (by norm_num) (Is.fin _), rfl⟩)
    (Is.fin 3) (Is.fin 2) (ord_of (by norm_num) (by norm_num)) (ord_of (by norm_num) (by norm_num)) (by norm_num) (ord_of (by norm_num) (by norm_num))
    (by norm_num)) (fin (1 / 2)) (1 / 2) (Is.fin _) ⟨ord_of (by norm_num) (by norm_num), by norm_num,
      by rw [abs_mul]; norm_num at lg ⊢; linarith, by rw [abs_mul]; norm_num at lg ⊢; linarith, by norm_num⟩).2
example : ∃ p, (Levy.pdf ⟨fin 1, fin 2⟩ (fin 4)).Is p ∧ |p - levyPDF 1 2 4| ≤ 1 / 2 ^ 42 * levyPDF 1 2 4 :=
  ((C269_levy (m := 1) (s := 2) (Levy.new_ok.2 ⟨lt_of_pos (by norm_num) (Is.fin _), rfl⟩) (Is.fin 1) (Is.fin 2) (ord_of (by norm_num) (by norm_num)))
    (fin 4) 4 (Is.fin 4) ⟨ord_of (by norm_num) (by norm_num), by norm_num⟩).2
example : ∃ p, (InvNormal.pdf ⟨fin 1, fin 2, UvNormal.standard⟩ (fin 4)).Is p ∧ |p - invNormalPDF 1 2 4| ≤ 1 / 2 ^ 41 * invNormalPDF 1 2 4 :=
  ((C269_inverse_normal (m := 1) (s := 2) (InvNormal.new_ok.2 ⟨lt_of_pos (by norm_num) (Is.fin _), lt_of_pos (by norm_num) (Is.fin _), rfl⟩) (Is.fin 1)
    (Is.fin 2) (ord_of (by norm_num) (by norm_num)) (ord_of (by norm_num) (by norm_num))) (fin 4) 4 (Is.fin 4)
    ⟨ord_of (by norm_num) (by norm_num), ord_of (by norm_num) (by norm_num), by norm_num⟩).2
example : ∃ p, (GeneralisedPareto.pdf ⟨fin 1, fin 3, fin (1 / 2)⟩ (fin 4)).Is p ∧ |p - gpdPDF 1 3 (1 / 2) 4| ≤ 1 / 2 ^ 39 * gpdPDF 1 3 (1 / 2) 4 := by
  have lg := log_le_two (x := 1 + 1 / 2 * ((4 - 1) / 3)) (by norm_num) (by norm_num)
  exact ((C269_gpd (m := 1) (s := 3) (ζ := 1 / 2) (GeneralisedPareto.new_ok.2 ⟨lt_of_pos (by norm_num) (Is.fin _), lt_of_pos (by norm_num) (Is.fin _), rfl⟩)
    (Is.fin 1) (Is.fin 3) (Is.fin _) (ord_of (by norm_num) (by norm_num)) (ord_of (by norm_num) (by norm_num)) (by norm_num)) (fin 4) 4 (Is.fin 4)
    ⟨ord_of (by norm_num) (by norm_num), by rw [abs_mul]; norm_num at lg ⊢; linarith⟩).2
end
end Rstat
