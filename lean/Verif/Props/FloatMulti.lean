import Verif.Lemmas.FloatScale
import Verif.Props.FloatMoments2
import Verif.Props.Dirichlet
import Verif.Props.MixtureFloat
import Verif.Props.Multinomial
import Verif.Props.Normal2
import Verif.Props.Dist.Pareto

/-! C260 (multivariate moments in floating point) and C261 (Fisher information in floating point). -/
set_option linter.unusedSectionVars false
namespace Rstat
open F64 Spec Consts Real MeasureTheory

section
variable [FP] [FP.Lawful] [FP.Libm] [FP.Accurate] {a b : F64} {α β s t : ℝ} {j k n : ℕ}

theorem forall₂_ofFn {n : ℕ} {v : Fin n → F64} {r : Fin n → ℝ} (h : ∀ i, (v i).Is (r i)) : List.Forall₂ F64.Is (List.ofFn v) (List.ofFn r) := by
  rw [List.forall₂_iff_get]
  refine ⟨by simp, fun i h1 h2 => ?_⟩
  simpa using h _

/-- the normaliser `Σ αᵢ` of a Dirichlet law -/
theorem dir_alpha0_rel {m : ℕ} {al : Fin (m + 1) → F64} {x : Fin (m + 1) → ℝ} (hal : ∀ i, (al i).Is (x i)) (hx : ∀ i, Ordinary (x i)) (hm : m < 100000) :
    Rel (Dirichlet.newUnchecked al).alpha0 (∑ i, x i) 80 (m + 1) := by
  have := rel_sum_pos (forall₂_ofFn hal) (fun r hr => by obtain ⟨i, rfl⟩ := (List.mem_ofFn' _ _).1 hr; exact hx i) (by simp) (by simp; omega)
  rwa [List.sum_ofFn, List.length_ofFn] at this

/-- C260 (Dirichlet law, dimension up to 100000): each `mean` is within relative error `(m+3)·2^-52` and each off-diagonal `covariance` within
`(3m+9)·2^-52` of the moment of the law; `variance` and the diagonal of `covariance` are within `(5m+12)·2^-52` on the scale `mean / (1 + Σα)`
(a relative bound fails: see the violation below). -/
theorem C260_dirichlet_partial {m : ℕ} {al : Fin (m + 1) → F64} {x : Fin (m + 1) → ℝ} (hal : ∀ i, (al i).Is (x i)) (hx : ∀ i, Ordinary (x i)) (hm : m < 100000) :
    (∀ i, RelClose ((Dirichlet.newUnchecked al).mean i) (∫ y, y i ∂(dirichletLaw x)) ((m + 3) / 2 ^ 52)) ∧
    (∀ i j, i ≠ j → ∃ c, HasCovM (dirichletLaw x) (fun y => y i) (fun y => y j) c ∧
      RelClose ((Dirichlet.newUnchecked al).covariance i j) c ((3 * m + 9) / 2 ^ 52)) ∧
    (∀ i, ∃ v, HasCovM (dirichletLaw x) (fun y => y i) (fun y => y i) v ∧
      ScaleClose ((Dirichlet.newUnchecked al).variance i) v ((∫ y, y i ∂(dirichletLaw x)) / (1 + ∑ j, x j)) ((5 * m + 12) / 2 ^ 52) ∧
      ScaleClose ((Dirichlet.newUnchecked al).covariance i i) v ((∫ y, y i ∂(dirichletLaw x)) / (1 + ∑ j, x j)) ((5 * m + 12) / 2 ^ 52)) := by
  have h0 := dir_alpha0_rel hal hx hm
  have x0 : ∀ i, 0 < x i := fun i => (hx i).pos
  have hA : 0 < ∑ i, x i := Finset.sum_pos (fun i _ => x0 i) ⟨0, Finset.mem_univ _⟩
  set A := ∑ i, x i with hAd
  have r := fun i => Rel.ord (hal i) (hx i)
  have h1 := h0.add (Rel.one.mono (by norm_num) (by omega)) hA one_pos (by norm_num) (by omega)
  have hnorm := (h0.mul h0 (by norm_num) (by omega)).mul h1 (by norm_num) (by omega)
  have hn0 : 0 < A * A * (A + 1) := by positivity
  have hle : ∀ i, x i ≤ A := fun i => Finset.single_le_sum (fun j _ => (x0 j).le) (Finset.mem_univ i)
  refine ⟨fun i => ?_, fun i j hij => ?_, fun i => ?_⟩
  · rw [(dirichlet_mean x0 i).2]
    obtain ⟨-, -, y, hy, he⟩ := (r i).div h0 (by norm_num) (by omega)
    refine ⟨y, hy, he.trans ?_⟩
    gcongr
    push_cast; linarith
  · have hc := dirichlet_cov x0 i j
    rw [if_neg hij] at hc
    refine ⟨_, hc, ?_⟩
    obtain ⟨-, -, y, hy, he⟩ := ((((r i).neg.mul (r j) (by norm_num) (by norm_num)).div hnorm (by norm_num) (by omega)).congr
      (s := -(x i * x j) / (A ^ 2 * (A + 1))) (by rw [sq, neg_mul]))
    refine ⟨y, ?_, he.trans ?_⟩
    · unfold Dirichlet.covariance; rw [if_neg hij]; exact hy
    · gcongr
      push_cast; linarith
  · have hc := dirichlet_cov x0 i i
    rw [if_pos rfl] at hc
    have hw : x i / A / (1 + A) = x i * A / (A * A * (A + 1)) := by field_simp; ring
    have gA : (1:ℝ) / 2 ^ 60 ≤ A := (hx i).1.trans (hle i)
    have A2 : A ≤ 2 ^ 80 := by have := h0.2.1; rwa [abs_of_pos hA] at this
    have sub : ∀ {u v : F64} {p q : ℝ}, (∃ y, u.Is y ∧ |y - p| ≤ (m + 1 : ℕ) / 2 ^ 52 * A) → (∃ y, v.Is y ∧ |y - q| ≤ (m + 1 : ℕ) / 2 ^ 52 * A) → |p - q| ≤ A →
        OnScale (u - v) (p - q) A 80 (2 * (m + 1) + 1) := by
      rintro u v p q ⟨y, hy, hye⟩ ⟨z, hz, hze⟩ hpq
      have g1 : (1:ℝ) / 2 ^ 80 ≤ A := le_trans (by norm_num) gA
      refine ⟨g1, A2, hpq, ?_⟩
      have e : |y - z - (p - q)| ≤ ((2 * (m + 1) : ℕ) + 1 / 4) / 2 ^ 52 * A := by
        have q1 := abs_sub (y - p) (z - q)
        rw [show y - p - (z - q) = y - z - (p - q) by ring] at q1
        have : (0:ℝ) ≤ 1 / 4 / 2 ^ 52 * A := by positivity
        push_cast at hye hze ⊢
        have : (2 * ((m:ℝ) + 1) + 1 / 4) / 2 ^ 52 * A = ((m:ℝ) + 1) / 2 ^ 52 * A + ((m:ℝ) + 1) / 2 ^ 52 * A + 1 / 4 / 2 ^ 52 * A := by ring
        rw [this]
        linarith
      obtain ⟨R, hR, hRe⟩ := OnScale.round g1 A2 hpq (by norm_num) (by omega) e
      exact ⟨R, hR.of_ext (add_ext hy hz.neg).symm, hRe⟩
    have eA : ∃ y, (Dirichlet.newUnchecked al).alpha0.Is y ∧ |y - A| ≤ (m + 1 : ℕ) / 2 ^ 52 * A := by
      obtain ⟨-, -, y, hy, he⟩ := h0
      rw [abs_of_pos hA] at he
      exact ⟨y, hy, he⟩
    have ex : ∃ y, (al i).Is y ∧ |y - x i| ≤ (m + 1 : ℕ) / 2 ^ 52 * A := ⟨_, hal i, by rw [sub_self, abs_zero]; positivity⟩
    have bd : |x i - A| ≤ A := by rw [abs_le]; constructor <;> linarith [hle i, x0 i]
    have sx := OnScale.of_rel (r i)
    rw [abs_of_pos (x0 i)] at sx
    have ny : ((3 * (m:ℝ) + 3 + 3 * 2)) ≤ 4 * m + 12 := by linarith [(Nat.cast_nonneg m : (0:ℝ) ≤ m)]
    refine ⟨_, hc, ?_, ?_⟩
    · rw [(dirichlet_mean x0 i).2, ← hAd, hw]
      have := ((sx.neg.mul (sub ex eA bd) (by norm_num) (by omega)).div hnorm hn0 (by norm_num) (by omega)).congr
        (t' := x i * (A - x i) / (A ^ 2 * (A + 1))) (by rw [sq]; congr 1; ring) rfl
      obtain ⟨-, -, -, y, hy, he⟩ := this
      refine ⟨y, hy, he.trans ?_⟩
      have : (0:ℝ) ≤ x i * A / (A * A * (A + 1)) := div_nonneg (mul_nonneg (x0 i).le hA.le) hn0.le
      gcongr
      push_cast; linarith
    · rw [(dirichlet_mean x0 i).2, ← hAd, hw]
      have := ((sx.mul (sub eA ex (by rwa [abs_sub_comm])) (by norm_num) (by omega)).div hnorm hn0 (by norm_num) (by omega)).congr
        (t' := x i * (A - x i) / (A ^ 2 * (A + 1))) (by rw [sq]) rfl
      obtain ⟨-, -, -, y, hy, he⟩ := this
      refine ⟨y, ?_, he.trans ?_⟩
      · unfold Dirichlet.covariance; rw [if_pos rfl]; exact hy
      have : (0:ℝ) ≤ x i * A / (A * A * (A + 1)) := div_nonneg (mul_nonneg (x0 i).le hA.le) hn0.le
      gcongr
      push_cast; linarith

/-- C260 (multinomial law): mean, variance, covariance are within relative error `2^-46` of the moments of the law, and each correlation within
`2^-46` of covariance over standard deviations, for weights of ordinary size in every category involved. -/
theorem C260_multinomial {N n : ℕ} {ps : Fin N → F64} {p : Fin N → ℝ} {d : Multinomial N} (h : Multinomial.new n ps = .ok d) (hp : ∀ i, (ps i).Is (p i))
    (h1 : ∑ i, p i = 1) (hn : 0 < n) (hn' : n < 2 ^ 64) (i j : Fin N) (hi : Ordinary (p i)) (hi' : Ordinary (1 - p i)) (hj : Ordinary (p j))
    (hj' : Ordinary (1 - p j)) :
    (∃ μ, HasSum (fun x => (x i : ℝ) * multinomialPMF n p x) μ ∧ RelClose (d.mean i) μ (1 / 2 ^ 46)) ∧
    (∃ v, HasCovD (multinomialPMF n p) (fun x => (x i : ℝ)) (fun x => (x i : ℝ)) v ∧ RelClose (d.variance i) v (1 / 2 ^ 46)) ∧
    (∃ c, HasCovD (multinomialPMF n p) (fun x => (x i : ℝ)) (fun x => (x j : ℝ)) c ∧ RelClose (d.covariance i j) c (1 / 2 ^ 46)) ∧
    (∃ c vi vj, HasCovD (multinomialPMF n p) (fun x => (x i : ℝ)) (fun x => (x j : ℝ)) c ∧
      HasCovD (multinomialPMF n p) (fun x => (x i : ℝ)) (fun x => (x i : ℝ)) vi ∧ HasCovD (multinomialPMF n p) (fun x => (x j : ℝ)) (fun x => (x j : ℝ)) vj ∧
      RelClose (d.correlation i j) (c / (√vi * √vj)) (1 / 2 ^ 46)) := by
  obtain ⟨_, rfl⟩ := Multinomial.new_ok.1 h
  have ri := Rel.ord (hp i) hi
  have rj := Rel.ord (hp j) hj
  have qi := Rel.sub_ord Is.one (hp i) hi'
  have qj := Rel.sub_ord Is.one (hp j) hj'
  have rn := Rel.ofNat hn hn'
  have n0 : (0:ℝ) < n := by exact_mod_cast hn
  have cov := fun i j => (⟨_, _, multinomial_mean (n := n) h1 i, multinomial_mean h1 j, multinomial_cov h1 i j⟩ :
    HasCovD (multinomialPMF n p) (fun x => (x i : ℝ)) (fun x => (x j : ℝ)) _)
  have var := fun i => cov i i
  simp only [if_true] at var
  refine ⟨⟨_, multinomial_mean h1 i, ((ri.mul rn (by norm_num) (by norm_num)).congr (by ring)).close (by norm_num)⟩,
    ⟨_, var i, (((ri.mul qi (by norm_num) (by norm_num)).mul rn (by norm_num) (by norm_num)).congr (by ring)).close (by norm_num)⟩,
    ⟨_, cov i j, ?_⟩, ⟨_, _, _, cov i j, var i, var j, ?_⟩⟩
  · unfold Multinomial.covariance
    dsimp only
    split_ifs with hij
    · exact ((rn.mul ri (by norm_num) (by norm_num)).mul qi (by norm_num) (by norm_num)).close (by norm_num)
    · exact ((rn.neg.mul ri (by norm_num) (by norm_num)).mul rj (by norm_num) (by norm_num)).close (by norm_num)
  · have vi0 : 0 < n * p i * (1 - p i) := mul_pos (mul_pos n0 hi.pos) hi'.pos
    have vj0 : 0 < n * p j * (1 - p j) := mul_pos (mul_pos n0 hj.pos) hj'.pos
    unfold Multinomial.correlation
    split_ifs with hij
    · subst hij
      rw [Real.mul_self_sqrt vi0.le, div_self vi0.ne']
      exact ⟨1, Is.one, by simp⟩
    · have pij : 0 < p i * p j / (1 - p i) / (1 - p j) := div_pos (div_pos (mul_pos hi.pos hj.pos) hi'.pos) hj'.pos
      refine ((((((ri.mul rj (by norm_num) (by norm_num)).div qi (by norm_num) (by norm_num)).div qj (by norm_num) (by norm_num)).sqrt pij
        (by norm_num) (by norm_num)).neg).congr ?_).close (by norm_num)
      rw [← Real.sqrt_mul vi0.le, neg_mul, neg_mul, neg_div, neg_inj]
      have e : n * p i * p j / √(n * p i * (1 - p i) * (n * p j * (1 - p j))) = √((n * p i * p j) ^ 2 / (n * p i * (1 - p i) * (n * p j * (1 - p j)))) := by
        rw [Real.sqrt_div (by positivity), Real.sqrt_sq (mul_nonneg (mul_nonneg n0.le hi.pos.le) hj.pos.le)]
      rw [e]
      congr 1
      have := hi.pos.ne'; have := hj.pos.ne'; have := hi'.pos.ne'; have := hj'.pos.ne'; have := n0.ne'
      field_simp

/-- C260 (bivariate normal law): `mean`, `variance` and `correlation` are the stored parameters; the cross-covariance is within relative error `2^-46`
of `ρ σ₁ σ₂`, and exactly zero for `ρ = 0`. -/
theorem C260_bivariate_normal {mu S : Fin 2 → F64} {rho : F64} {d : BvNormal} {m s : Fin 2 → ℝ} {r : ℝ} (h : BvNormal.new mu S rho = .ok d)
    (hm : ∀ i, (mu i).Is (m i)) (hS : ∀ i, (S i).Is (s i)) (hr : rho.Is r) (hs : ∀ i, Ordinary (s i)) :
    (∀ i, (BvNormal.mean d i).Is (m i) ∧ (BvNormal.variance d i).Is (s i) ∧ (d.covariance i i).Is (s i) ∧ (d.correlation i i).Is 1) ∧
    (∀ i j, i ≠ j → (d.correlation i j).Is r ∧ (Ordinary |r| → RelClose (d.covariance i j) (r * √(s i) * √(s j)) (1 / 2 ^ 46)) ∧ (r = 0 → (d.covariance i j).Is 0)) := by
  obtain ⟨-, -, -, rfl⟩ := BvNormal.new_ok.1 h
  have s0 := Rel.ord (hS 0) (hs 0); have s1 := Rel.ord (hS 1) (hs 1)
  have q0 := s0.sqrt (hs 0).pos (by norm_num) (by norm_num)
  have q1 := s1.sqrt (hs 1).pos (by norm_num) (by norm_num)
  have cr := q0.mul q1 (by norm_num) (by norm_num)
  have c : (Ordinary |r| → RelClose (rho * ((S 0).sqrt * (S 1).sqrt)) (r * √(s 0) * √(s 1)) (1 / 2 ^ 46)) ∧ (r = 0 → (rho * ((S 0).sqrt * (S 1).sqrt)).Is 0) := by
    refine ⟨fun ho => ?_, fun e => ?_⟩
    · have rr : Rel rho r 60 0 := Rel.exact hr (by exact ho.1) ho.2
      exact ((rr.mul cr (by norm_num) (by norm_num)).congr (by ring)).close (by norm_num)
    · subst e
      obtain ⟨-, -, y, hy, -⟩ := cr
      have := mul_fin_ext hr hy
      rw [zero_mul] at this
      exact round_zero_is.of_ext this.symm
  refine ⟨fun i => ⟨hm i, hS i, ?_, ?_⟩, fun i j hij => ⟨?_, ?_⟩⟩
  · fin_cases i
    · exact hS 0
    · exact hS 1
  · fin_cases i <;> exact Is.one
  · fin_cases i <;> fin_cases j <;> first | exact absurd rfl hij | exact hr
  · fin_cases i <;> fin_cases j
    · exact absurd rfl hij
    · exact c
    · refine ⟨fun ho => ?_, c.2⟩
      have := c.1 ho
      rwa [show r * √(s 0) * √(s 1) = r * √(s 1) * √(s 0) by ring] at this
    · exact absurd rfl hij

/-! ### C261 -/

/-- C261 (normal law): the Fisher information matrix in (mean, variance) has diagonal within relative error `2^-46` and an exactly zero off-diagonal. -/
theorem C261_normal {d : UvNormal} {μ v : ℝ} (h : UvNormal.new a b = .ok d) (_ha : a.Is μ) (hb : b.Is v) (hv : Ordinary v) :
    (∀ i, RelClose (d.fisherInformation i i) (fisher normalFamily ![μ, v] i i) (1 / 2 ^ 46)) ∧
    ∀ i j, i ≠ j → (d.fisherInformation i j).Is (fisher normalFamily ![μ, v] i j) := by
  obtain ⟨_, rfl⟩ := UvNormal.new_ok.1 h
  obtain ⟨f1, f2, f3, f4⟩ := @normal_fisher exactFP exactFP_exact μ v hv.pos
  have hp := Rel.one.div (Rel.ord hb hv) (by norm_num) (by norm_num)
  refine ⟨fun i => ?_, fun i j hij => ?_⟩
  · fin_cases i
    · exact (hp.congr f1.symm).close (by norm_num)
    · refine (((hp.mul hp (by norm_num) (by norm_num)).div (Rel.num 2 (by norm_num)) (by norm_num) (by norm_num)).congr ?_).close (by norm_num)
      refine Eq.trans ?_ f4.symm
      have := hv.pos.ne'
      field_simp
  · fin_cases i <;> fin_cases j
    · exact absurd rfl hij
    · exact Is.zero.congr f2.symm
    · exact Is.zero.congr f3.symm
    · exact absurd rfl hij

/-- C261 (Bernoulli law). -/
theorem C261_bernoulli {d : Bernoulli} {p : ℝ} (h : Bernoulli.new a = .ok d) (ha : a.Is p) (hp : Ordinary p) (hq : Ordinary (1 - p)) :
    RelClose d.fisherInformation (fisherD bernPMF p) (1 / 2 ^ 46) := by
  obtain ⟨_, rfl⟩ := Bernoulli.new_ok.1 h
  rw [bern_fisher hp.pos (by linarith [hq.pos])]
  exact (Rel.one.div ((Rel.ord ha hp).mul (Rel.sub_ord Is.one ha hq) (by norm_num) (by norm_num)) (by norm_num) (by norm_num)).close (by norm_num)

/-- C261 (binomial law). -/
theorem C261_binomial {P : Probability} {d : Binomial} {p : ℝ} (h : Binomial.new n P = .ok d) (hP : P.val.Is p) (hn : 0 < n) (hn' : n < 2 ^ 64)
    (hp : Ordinary p) (hq : Ordinary (1 - p)) :
    RelClose d.fisherInformation (fisherD (binPMF n) p) (1 / 2 ^ 46) := by
  obtain ⟨_, rfl⟩ := Binomial.new_ok.1 h
  rw [bin_fisher hp.pos (by linarith [hq.pos])]
  exact ((((Rel.ofNat hn hn').div (Rel.ord hP hp) (by norm_num) (by norm_num)).div (Rel.sub_ord Is.one hP hq) (by norm_num) (by norm_num)).congr
    (by rw [div_div])).close (by norm_num)

/-- C261 (Pareto law): the entry of the shape parameter; the rest of the matrix is wrong (C110 and below). -/
theorem C261_pareto_partial {d : Pareto} {m : ℝ} (h : Pareto.new a b = .ok d) (_ha : a.Is m) (hb : b.Is α) (hm : 0 < m) (hα : Ordinary α) :
    RelClose (d.fisherInformation 1 1) (fisher (fun θ : Fin 2 → ℝ => Spec.paretoPDF (θ 0) (θ 1)) ![m, α] 1 1) (1 / 2 ^ 46) := by
  obtain ⟨h0, rfl⟩ := Pareto.new_ok.1 h
  obtain ⟨f1, f2, f3, f4⟩ := pareto_fisher hm hα.pos
  rw [f4]
  have r := Rel.ord hb hα
  exact (((Rel.one.div r (by norm_num) (by norm_num)).div r (by norm_num) (by norm_num)).congr (by rw [div_div, sq])).close (by norm_num)

/-- C261 violated (Pareto law): in every floating-point implementation the off-diagonal entries are computed as a negative number instead of zero,
and the scale entry is off by the factor `α`. -/
theorem C261_pareto_violated {d : Pareto} {m : ℝ} (h : Pareto.new a b = .ok d) (ha : a.Is m) (hb : b.Is α) (hm : Ordinary m) (hα : Ordinary α) :
    (∀ ε, ¬ RelClose (d.fisherInformation 0 1) (fisher (fun θ : Fin 2 → ℝ => Spec.paretoPDF (θ 0) (θ 1)) ![m, α] 0 1) ε) ∧
    (2 ≤ α → ¬ RelClose (d.fisherInformation 0 0) (fisher (fun θ : Fin 2 → ℝ => Spec.paretoPDF (θ 0) (θ 1)) ![m, α] 0 0) (1 / 4)) := by
  obtain ⟨h0, rfl⟩ := Pareto.new_ok.1 h
  obtain ⟨f1, f2, f3, f4⟩ := pareto_fisher hm.pos hα.pos
  have rm := Rel.ord ha hm
  have ra := Rel.ord hb hα
  have m0 := hm.pos; have α0 := hα.pos
  refine ⟨fun ε hc => ?_, fun h2 hc => ?_⟩
  · rw [f2] at hc
    obtain ⟨y, hy, he⟩ := hc
    rw [abs_zero, mul_zero, sub_zero] at he
    have y0 : y = 0 := abs_nonpos_iff.1 he
    subst y0
    have one : Rel (F64.fin (-1)) (-1) 7 0 := Rel.exact (Is.fin _) (by norm_num) (by norm_num)
    obtain ⟨g1, -, z, hz, hze⟩ := one.div rm (by norm_num) (by norm_num)
    have : z = 0 := is_uniq hz hy
    subst this
    rw [zero_sub, abs_neg] at hze
    have gp : 0 < |(-1:ℝ) / m| := lt_of_lt_of_le (by positivity) g1
    norm_num at hze
    nlinarith
  · rw [f1] at hc
    obtain ⟨y, hy, he⟩ := hc
    obtain ⟨-, -, z, hz, hze⟩ := (ra.div rm (by norm_num) (by norm_num)).div rm (by norm_num) (by norm_num)
    have : z = y := is_uniq hz hy
    subst this
    have T : 0 < α / m / m := by positivity
    rw [abs_of_pos T] at hze
    have e : α ^ 2 / m ^ 2 = α * (α / m / m) := by field_simp
    rw [e, abs_of_pos (mul_pos α0 T)] at he
    generalize α / m / m = T at *
    have h3 := (abs_le.1 he).1
    have h4 := (abs_le.1 hze).2
    norm_num at h4
    nlinarith

/-- C261 violated (exponential and Poisson laws): the returned `λ²` and `λ` are not the information `1/λ²` and `1/λ`, whatever the rounding. -/
theorem C261_exponential_poisson_violated {l : ℝ} (ha : a.Is l) (hl : Ordinary l) (h2 : 2 ≤ l) :
    (∀ d, Exponential.new a = .ok d → ¬ RelClose d.fisherInformation (1 / l ^ 2) (1 / 2)) ∧
    (∀ d, Poisson.new a = .ok d → ¬ RelClose d.fisherInformation (1 / l) (1 / 2)) := by
  have r := Rel.ord ha hl
  have l0 := hl.pos
  refine ⟨fun d h hc => ?_, fun d h hc => ?_⟩
  · obtain ⟨_, rfl⟩ := Exponential.new_ok.1 h
    obtain ⟨y, hy, he⟩ := hc
    obtain ⟨-, -, z, hz, hze⟩ := r.mul r (by norm_num) (by norm_num)
    have : z = y := is_uniq hz hy
    subst this
    rw [abs_of_pos (mul_pos l0 l0)] at hze
    rw [abs_of_pos (show 0 < 1 / l ^ 2 by positivity)] at he
    have h3 := (abs_le.1 he).2
    have h4 := (abs_le.1 hze).1
    have h5 : 1 / l ^ 2 ≤ 1 := by rw [div_le_one (by positivity)]; nlinarith
    norm_num at h4
    have : 4 ≤ l * l := by nlinarith
    linarith
  · obtain ⟨_, rfl⟩ := Poisson.new_ok.1 h
    obtain ⟨y, hy, he⟩ := hc
    have : l = y := is_uniq ha hy
    subst this
    rw [abs_of_pos (show 0 < 1 / l by positivity)] at he
    have h3 := (abs_le.1 he).2
    have h5 : 1 / l ≤ 1 / 2 := by gcongr
    linarith
end

section
open B64
attribute [local instance] binary64 binary64_lawful B64.libm B64.specialFns B64.accurate

/-- C260 violated: in binary64 the variance of a Dirichlet component with concentration `2^k` (`60 ≤ k ≤ 300`) beside a component with concentration 1
is computed as zero, by `variance` and by `covariance`, although the component is not constant. -/
theorem C260_dirichlet_variance_violated (k : ℕ) (hk : 60 ≤ k) (hk' : k ≤ 300) :
    ∃ v, 0 < v ∧ HasCovM (dirichletLaw ![(2:ℝ) ^ k, 1]) (fun y => y 0) (fun y => y 0) v ∧
      ((Dirichlet.newUnchecked ![F64.fin ((2:ℝ) ^ k), F64.fin 1]).variance 0).Is 0 ∧
      ((Dirichlet.newUnchecked ![F64.fin ((2:ℝ) ^ k), F64.fin 1]).covariance 0 0).Is 0 ∧
      ¬ RelClose ((Dirichlet.newUnchecked ![F64.fin ((2:ℝ) ^ k), F64.fin 1]).variance 0) v (1 / 2) := by
  have p0 : (0:ℝ) < 2 ^ k := by positivity
  have x0 : ∀ i, 0 < (![(2:ℝ) ^ k, 1] : Fin (1 + 1) → ℝ) i := by intro i; fin_cases i <;> simp
  have hc := dirichlet_cov x0 0 0
  rw [if_pos rfl] at hc
  have hs : ∑ j, (![(2:ℝ) ^ k, 1] : Fin (1 + 1) → ℝ) j = 2 ^ k + 1 := by simp [Fin.sum_univ_two]
  rw [hs] at hc
  have hA : (Dirichlet.newUnchecked ![F64.fin ((2:ℝ) ^ k), F64.fin 1]).alpha0 = F64.fin ((2:ℝ) ^ k) := by
    show F64.sum (List.ofFn ![F64.fin ((2:ℝ) ^ k), F64.fin 1]) = _
    simp only [List.ofFn_succ, List.ofFn_zero, F64.sum, List.foldl_cons, List.foldl_nil]
    have e : (0 : F64) + F64.fin ((2:ℝ) ^ k) = F64.fin ((2:ℝ) ^ k) :=
      add_val (by rw [zero_add]; exact rnd_pow k) (pow_lt1024 k (by omega)) p0.ne'
    have := absorb_one k hk (by omega)
    show (0 : F64) + F64.fin ((2:ℝ) ^ k) + F64.fin 1 = _
    rw [e]; exact this
  have hsq : F64.fin ((2:ℝ) ^ k) * F64.fin ((2:ℝ) ^ k) = F64.fin ((2:ℝ) ^ (k + k)) := mul_pow k k _ (by omega) rfl
  have hnorm : (F64.fin ((2:ℝ) ^ k) * F64.fin ((2:ℝ) ^ k) * (F64.fin ((2:ℝ) ^ k) + 1)).Is (2 ^ (k + k + k)) := by
    rw [hsq, absorb_one k hk (by omega), mul_pow (k + k) k _ (by omega) rfl]; exact Is.fin _
  have hsub : (F64.fin ((2:ℝ) ^ k) - F64.fin ((2:ℝ) ^ k)).Is 0 := by
    have := add_ext (Is.fin ((2:ℝ) ^ k)) (Is.fin ((2:ℝ) ^ k)).neg
    rw [add_neg_cancel] at this
    exact round_zero_is.of_ext this.symm
  have hv : ((Dirichlet.newUnchecked ![F64.fin ((2:ℝ) ^ k), F64.fin 1]).variance 0).Is 0 := by
    unfold Dirichlet.variance
    rw [hA]
    exact zero_div_val (mul_zero_is hsub (Is.fin ((2:ℝ) ^ k)).neg) hnorm (by positivity)
  have hv' : ((Dirichlet.newUnchecked ![F64.fin ((2:ℝ) ^ k), F64.fin 1]).covariance 0 0).Is 0 := by
    unfold Dirichlet.covariance
    rw [hA, if_pos rfl]
    exact zero_div_val (mul_zero_is hsub (Is.fin ((2:ℝ) ^ k))) hnorm (by positivity)
  have hpos : 0 < (![(2:ℝ) ^ k, 1] : Fin (1 + 1) → ℝ) 0 * (2 ^ k + 1 - (![(2:ℝ) ^ k, 1] : Fin (1 + 1) → ℝ) 0) / ((2 ^ k + 1) ^ 2 * (2 ^ k + 1 + 1)) := by
    simp; positivity
  exact ⟨_, hpos, hc, hv, hv', not_close_zero hv hpos⟩

/-- non-vacuity: a three-dimensional Dirichlet law in binary64 -/
example : ∀ i, RelClose ((Dirichlet.newUnchecked ![F64.fin 2, F64.fin 3, F64.fin 7]).mean i) (∫ y, y i ∂(dirichletLaw ![(2:ℝ), 3, 7])) ((((2 : ℕ) : ℝ) + 3) / 2 ^ 52) :=
  (C260_dirichlet_partial (m := 2) (fun i => by fin_cases i <;> exact Is.fin _)
    (fun i => by fin_cases i <;> exact ordinary_of (by norm_num) (by norm_num)) (by norm_num)).1

/-- non-vacuity: a constructible multinomial in binary64 -/
example : ∃ d : Multinomial 2, Multinomial.new 10 ![F64.fin (1 / 2), F64.fin (1 / 2)] = .ok d ∧
    ∃ c, HasCovD (multinomialPMF 10 ![(1 / 2 : ℝ), 1 / 2]) (fun x => (x 0 : ℝ)) (fun x => (x 1 : ℝ)) c ∧ RelClose (d.covariance 0 1) c (1 / 2 ^ 46) := by
  have h : Multinomial.new 10 ![F64.fin (1 / 2), F64.fin (1 / 2)] = .ok ⟨10, ![F64.fin (1 / 2), F64.fin (1 / 2)]⟩ := by
    refine Multinomial.new_ok.2 ⟨?_, rfl⟩
    obtain ⟨m, hm⟩ := half_weights_ok (D := logisticComp) ⟨fin 0, fin 1⟩ ⟨fin 3, fin 2⟩
    exact ⟨_, (Mixture.new_ok _ _ _ _ hm).2.2.1⟩
  have hp : ∀ i, ((![F64.fin (1 / 2), F64.fin (1 / 2)] : Fin 2 → F64) i).Is ((![(1 / 2 : ℝ), 1 / 2] : Fin 2 → ℝ) i) := by
    intro i; fin_cases i <;> exact Is.fin _
  have o : Ordinary (1 / 2) := ordinary_of (by norm_num) (by norm_num)
  have o' : Ordinary (1 - 1 / 2) := ordinary_of (by norm_num) (by norm_num)
  exact ⟨_, h, (C260_multinomial h hp (by simp [Fin.sum_univ_two]; norm_num) (by norm_num) (by norm_num) 0 1 o o' o o').2.2.1⟩

/-- non-vacuity: a normal law in binary64 -/
example : ∃ d, UvNormal.new (F64.fin 3) (F64.fin 4) = .ok d ∧ RelClose (d.fisherInformation 1 1) (fisher normalFamily ![3, 4] 1 1) (1 / 2 ^ 46) := by
  have h : UvNormal.new (F64.fin 3) (F64.fin 4) = .ok ⟨F64.fin 3, F64.fin 4⟩ := UvNormal.new_ok.2 ⟨lt_of_pos (by norm_num) (Is.fin _), rfl⟩
  exact ⟨_, h, (C261_normal h (Is.fin _) (Is.fin _) (ordinary_of (by norm_num) (by norm_num))).1 1⟩
end
end Rstat
