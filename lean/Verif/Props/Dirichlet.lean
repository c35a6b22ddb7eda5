import Verif.Model.Multi
import Verif.Lemmas.Dirichlet2
import Verif.Lemmas.Consts
import Verif.Lemmas.DistBase
import Verif.Lemmas.Positive
import Verif.Lemmas.Constraints

/-! Properties C100, C101, C185-C187: the Dirichlet law. `Dirichlet::new` rejects every non-empty vector (C16), so the law is the one built by
`new_unchecked`/`From<Concentrations>` from positive concentrations. -/
set_option linter.unusedSectionVars false
namespace Rstat
open F64 Spec MeasureTheory ProbabilityTheory Filter

theorem sum_ofFn_is [FP] [FP.Exact] {n : ℕ} {v : Fin n → F64} {r : Fin n → ℝ} (h : ∀ i, (v i).Is (r i)) :
    (F64.sum (List.ofFn v)).Is (∑ i, r i) := by
  rw [List.ofFn_eq_map, ← List.sum_ofFn, List.ofFn_eq_map]
  exact Is.sum_map _ _ _ fun i _ => h i

theorem dirFoldl_is [FP] [FP.Exact] {α : Type*} (f : α → F64) (r : α → ℝ) : ∀ (l : List α), (∀ x ∈ l, (f x).Is (r x)) → ∀ {a : F64} {c : ℝ}, a.Is c →
    (l.foldl (fun acc x => acc + f x) a).Is (c + (l.map r).sum)
  | [], _, a, c, h => by simpa using h
  | x :: l, hl, a, c, h => by
    have := dirFoldl_is f r l (fun y hy => hl y (by simp [hy])) (h.add (hl x (by simp)))
    rw [List.foldl_cons, List.map_cons, List.sum_cons, ← add_assoc]
    exact this

section
variable [FP] [FP.Exact] {m : ℕ} {al : Fin (m + 1) → F64} {a : Fin (m + 1) → ℝ}

theorem dir_alpha0 (hal : ∀ i, (al i).Is (a i)) : (Dirichlet.newUnchecked al).alpha0.Is (∑ i, a i) := sum_ofFn_is hal

theorem dir_lnBeta (hal : ∀ i, (al i).Is (a i)) (ha : ∀ i, 0 < a i) :
    (Dirichlet.newUnchecked al).lnBetaAlphas.Is (∑ i, Real.log (Real.Gamma (a i)) - Real.log (Real.Gamma (∑ i, a i))) := by
  have hA : 0 < ∑ i, a i := Finset.sum_pos (fun i _ => ha i) ⟨0, Finset.mem_univ _⟩
  have h0 := ((dir_alpha0 hal).loggamma hA).neg
  have := dirFoldl_is (fun i : Fin (m + 1) => (al i).loggamma) (fun i => Real.log (Real.Gamma (a i))) (List.finRange (m + 1))
    (fun i _ => (hal i).loggamma (ha i)) h0
  rw [← List.ofFn_eq_map, List.sum_ofFn] at this
  have e : (Dirichlet.newUnchecked al).lnBetaAlphas = (List.finRange (m + 1)).foldl (fun acc i => acc + (al i).loggamma)
      (-(Dirichlet.newUnchecked al).alpha0.loggamma) := by
    show (List.ofFn al).foldl (fun acc a => acc + a.loggamma) (-(Dirichlet.newUnchecked al).alpha0.loggamma) = _
    generalize (-(Dirichlet.newUnchecked al).alpha0.loggamma) = z
    rw [List.ofFn_eq_map (f := al), List.foldl_map]
  rw [e]
  exact Is.congr this (by ring)

/-- C100: at every point with positive coordinates `pdf` is the Dirichlet density; and that density is indeed the density of the law of
independent Gamma(α_i) variates divided by their sum, which is a probability law on the open simplex. -/
theorem C100_dirichlet_pdf (hal : ∀ i, (al i).Is (a i)) (ha : ∀ i, 0 < a i) :
    (∀ (x : Fin (m + 1) → F64) (r : Fin (m + 1) → ℝ), (∀ i, (x i).Is (r i)) → (∀ i, 0 < r i) →
      ((Dirichlet.newUnchecked al).pdf x).Is (dirichletPDF a r)) ∧
    IsProbabilityMeasure (dirichletLaw a) ∧
    (∀ᵐ x ∂(dirichletLaw a), (∀ i, 0 < x i) ∧ ∑ i, x i = 1) ∧
    ∀ h : (Fin (m + 1) → ℝ) → ENNReal, Measurable h → ∫⁻ x, h x ∂(dirichletLaw a) =
      ∫⁻ y : Fin m → ℝ, (if ∀ i, 0 < simplexPoint y i then ENNReal.ofReal (dirichletPDF a (simplexPoint y)) else 0) * h (simplexPoint y) := by
  refine ⟨fun x r hx hr => ?_, dirichletLaw_prob ha, dirichlet_ae ha, fun h hh => dirichlet_density ha h hh⟩
  have hA : 0 < ∑ i, a i := Finset.sum_pos (fun i _ => ha i) ⟨0, Finset.mem_univ _⟩
  have := dirFoldl_is (fun i : Fin (m + 1) => (al i - 1) * (x i).ln) (fun i => (a i - 1) * Real.log (r i)) (List.finRange (m + 1))
    (fun i _ => ((hal i).sub Is.one).mul ((hx i).ln (hr i))) (dir_lnBeta hal ha).neg
  rw [← List.ofFn_eq_map, List.sum_ofFn] at this
  unfold Dirichlet.pdf Dirichlet.logPdf
  rw [List.ofFn_eq_map, List.foldl_map]
  refine Is.congr this.exp ?_
  have hG : ∀ i, 0 < Real.Gamma (a i) := fun i => Real.Gamma_pos_of_pos (ha i)
  rw [dirichletPDF, Real.exp_add, neg_sub, Real.exp_sub, Real.exp_log (Real.Gamma_pos_of_pos hA), Real.exp_sum, Real.exp_sum]
  congr 1
  · congr 1
    exact Finset.prod_congr rfl fun i _ => Real.exp_log (hG i)
  · exact Finset.prod_congr rfl fun i _ => by rw [Real.rpow_def_of_pos (hr i), mul_comm]

/-- C100: `mean`, `variance` and `covariance` are the moments of the Dirichlet law. -/
theorem C100_dirichlet_moments (hal : ∀ i, (al i).Is (a i)) (ha : ∀ i, 0 < a i) :
    (∀ i, ∃ v, ((Dirichlet.newUnchecked al).mean i).Is v ∧ Integrable (fun x => x i) (dirichletLaw a) ∧ ∫ x, x i ∂(dirichletLaw a) = v) ∧
    (∀ i, ∃ v, ((Dirichlet.newUnchecked al).variance i).Is v ∧ HasCovM (dirichletLaw a) (fun x => x i) (fun x => x i) v) ∧
    (∀ i j, ∃ v, ((Dirichlet.newUnchecked al).covariance i j).Is v ∧ HasCovM (dirichletLaw a) (fun x => x i) (fun x => x j) v) := by
  have hA : 0 < ∑ i, a i := Finset.sum_pos (fun i _ => ha i) ⟨0, Finset.mem_univ _⟩
  have h0 := dir_alpha0 hal
  have hn := (h0.mul h0).mul (h0.add Is.one)
  have hn0 : (∑ i, a i) * (∑ i, a i) * (∑ i, a i + 1) ≠ 0 := by positivity
  refine ⟨fun i => ⟨_, (hal i).div h0 hA.ne', dirichlet_mean ha i⟩, fun i => ⟨_, ((hal i).neg.mul ((hal i).sub h0)).div hn hn0, ?_⟩, fun i j => ?_⟩
  · have := dirichlet_cov ha i i
    rw [if_pos rfl] at this
    rw [show -a i * (a i - ∑ i, a i) / ((∑ i, a i) * (∑ i, a i) * (∑ i, a i + 1)) = a i * (∑ j, a j - a i) / ((∑ j, a j) ^ 2 * (∑ j, a j + 1)) by
      rw [sq]; congr 1; ring]
    exact this
  · refine ⟨(if i = j then a i * (∑ j, a j - a i) else -(a i * a j)) / ((∑ j, a j) ^ 2 * (∑ j, a j + 1)), ?_, dirichlet_cov ha i j⟩
    unfold Dirichlet.covariance
    split_ifs with hij
    · exact Is.congr (((hal i).mul (h0.sub (hal i))).div hn hn0) (by rw [sq])
    · exact Is.congr (((hal i).neg.mul (hal j)).div hn hn0) (by rw [sq, neg_mul])

/-- C100: the covariance matrix is symmetric, has `variance` on its diagonal, and its rows sum to zero. -/
theorem C100_dirichlet_rows (hal : ∀ i, (al i).Is (a i)) (ha : ∀ i, 0 < a i) :
    ∃ C : Fin (m + 1) → Fin (m + 1) → ℝ, (∀ i j, ((Dirichlet.newUnchecked al).covariance i j).Is (C i j)) ∧
      (∀ i j, C i j = C j i) ∧ (∀ i, ((Dirichlet.newUnchecked al).variance i).Is (C i i)) ∧ ∀ i, ∑ j, C i j = 0 := by
  have hA : 0 < ∑ i, a i := Finset.sum_pos (fun i _ => ha i) ⟨0, Finset.mem_univ _⟩
  have h0 := dir_alpha0 hal
  have hn := (h0.mul h0).mul (h0.add Is.one)
  have hn0 : (∑ i, a i) * (∑ i, a i) * (∑ i, a i + 1) ≠ 0 := by positivity
  refine ⟨fun i j => (if i = j then a i * (∑ j, a j) - a i * a j else -(a i * a j)) / ((∑ i, a i) * (∑ i, a i) * (∑ i, a i + 1)), ?_, ?_, ?_, ?_⟩
  · intro i j
    unfold Dirichlet.covariance
    dsimp only
    split_ifs with hij
    · subst hij; exact Is.congr (((hal i).mul (h0.sub (hal i))).div hn hn0) (by rw [mul_sub])
    · exact Is.congr (((hal i).neg.mul (hal j)).div hn hn0) (by rw [neg_mul])
  · intro i j
    by_cases hij : i = j
    · subst hij; rfl
    · dsimp only; rw [if_neg hij, if_neg (Ne.symm hij), mul_comm (a i)]
  · intro i
    dsimp only
    rw [if_pos rfl]
    exact Is.congr (((hal i).neg.mul ((hal i).sub h0)).div hn hn0) (by congr 1; ring)
  · intro i
    rw [← Finset.sum_div]
    have e : ∀ j, (if i = j then a i * (∑ j, a j) - a i * a j else -(a i * a j)) = (if i = j then a i * ∑ j, a j else 0) - a i * a j := fun j => by
      split_ifs <;> ring
    simp only [e]
    rw [Finset.sum_sub_distrib, Finset.sum_ite_eq, if_pos (Finset.mem_univ i), ← Finset.mul_sum, sub_self, zero_div]

/-! ### sampling -/

/-- the sampler's output in terms of its Gamma draws -/
theorem dir_sample {σ : Type} (g : GammaRng σ) (s : σ) (hal : ∀ i, (al i).Is (a i)) (ha : ∀ i, 0 < a i) {G : Fin (m + 1) → ℝ}
    (hG : ∀ i, (g.nth al s i).Is (G i)) :
    ∃ x, ((Dirichlet.newUnchecked al).sample g s).1 = .ok x ∧ ∀ i, (x i).Is (G i / ∑ j, a j) := by
  have hA : 0 < ∑ i, a i := Finset.sum_pos (fun i _ => ha i) ⟨0, Finset.mem_univ _⟩
  unfold Dirichlet.sample
  rw [if_pos (show ∀ i, 0 < (Dirichlet.newUnchecked al).alphas i from fun i => lt_of_pos (ha i) (hal i))]
  exact ⟨_, rfl, fun i => (hG i).div (dir_alpha0 hal) hA.ne'⟩

/-- C101 is violated: for every concentration vector and every stream of Gamma draws, the sampled vector adds up to (sum of draws)/α₀; so it
lies on the simplex only if the draws happen to add up to α₀, … -/
theorem C101_dirichlet_sample_violated {σ : Type} (g : GammaRng σ) (s : σ) (hal : ∀ i, (al i).Is (a i)) (ha : ∀ i, 0 < a i)
    {G : Fin (m + 1) → ℝ} (hG : ∀ i, (g.nth al s i).Is (G i)) (h0 : ∀ i, 0 < G i) :
    ∃ (x : Fin (m + 1) → F64) (r : Fin (m + 1) → ℝ), ((Dirichlet.newUnchecked al).sample g s).1 = .ok x ∧ (∀ i, (x i).Is (r i)) ∧
      ∑ i, r i = (∑ i, G i) / ∑ i, a i ∧ (OnSimplex r ↔ ∑ i, G i = ∑ i, a i) := by
  have hA : 0 < ∑ i, a i := Finset.sum_pos (fun i _ => ha i) ⟨0, Finset.mem_univ _⟩
  obtain ⟨x, h1, h2⟩ := dir_sample g s hal ha hG
  have hs : ∑ i, G i / ∑ j, a j = (∑ i, G i) / ∑ i, a i := (Finset.sum_div _ _ _).symm
  refine ⟨x, _, h1, h2, hs, ?_⟩
  unfold OnSimplex
  rw [hs, div_eq_one_iff_eq hA.ne']
  exact and_iff_right fun i => (div_pos (h0 i) hA).le

/-- … which has probability zero: with ideal independent Gamma draws, the sampler leaves the simplex almost surely. -/
theorem C101_dirichlet_sample_null_violated (hal : ∀ i, (al i).Is (a i)) (ha : ∀ i, 0 < a i) :
    ∀ᵐ G ∂(Measure.pi fun i => gammaMeasure (a i) 1), ∀ {σ : Type} (g : GammaRng σ) (s : σ), (∀ i, (g.nth al s i).Is (G i)) →
      ∃ (x : Fin (m + 1) → F64) (r : Fin (m + 1) → ℝ), ((Dirichlet.newUnchecked al).sample g s).1 = .ok x ∧ (∀ i, (x i).Is (r i)) ∧ ¬ OnSimplex r := by
  filter_upwards [gamma_total_null ha (∑ i, a i), pi_gamma_ae_pos ha] with G h1 h2 σ g s hG
  obtain ⟨x, r, e1, e2, _, e4⟩ := C101_dirichlet_sample_violated g s hal ha hG h2
  exact ⟨x, r, e1, e2, fun h => h1 (e4.1 h)⟩

/-- C101 (what holds): the sample is a positive multiple of a point of the simplex: normalising it gives the normalised draws. -/
theorem C101_dirichlet_sample_partial {σ : Type} (g : GammaRng σ) (s : σ) (hal : ∀ i, (al i).Is (a i)) (ha : ∀ i, 0 < a i)
    {G : Fin (m + 1) → ℝ} (hG : ∀ i, (g.nth al s i).Is (G i)) (h0 : ∀ i, 0 < G i) :
    ∃ (x : Fin (m + 1) → F64) (r : Fin (m + 1) → ℝ), ((Dirichlet.newUnchecked al).sample g s).1 = .ok x ∧ (∀ i, (x i).Is (r i)) ∧
      ∀ i, 0 < r i ∧ r i / ∑ j, r j = G i / ∑ j, G j := by
  have hA : 0 < ∑ i, a i := Finset.sum_pos (fun i _ => ha i) ⟨0, Finset.mem_univ _⟩
  have hS : 0 < ∑ i, G i := Finset.sum_pos (fun i _ => h0 i) ⟨0, Finset.mem_univ _⟩
  obtain ⟨x, h1, h2⟩ := dir_sample g s hal ha hG
  refine ⟨x, _, h1, h2, fun i => ⟨div_pos (h0 i) hA, ?_⟩⟩
  rw [← Finset.sum_div]; field_simp

/-! ### off the open simplex -/

theorem foldl_nan {α : Type*} (f : α → F64) : ∀ l : List α, l.foldl (fun acc x => acc + f x) (nan : F64) = nan
  | [] => rfl
  | x :: l => by rw [List.foldl_cons]; exact foldl_nan f l

theorem foldl_nan_mem {α : Type*} (f : α → F64) : ∀ (l : List α) (a : F64), (∃ x ∈ l, f x = nan) → l.foldl (fun acc x => acc + f x) a = nan
  | [], _, h => by simp at h
  | x :: l, a, h => by
    rw [List.foldl_cons]
    by_cases hx : f x = nan
    · rw [hx, add_nan]; exact foldl_nan f l
    · refine foldl_nan_mem f l _ ?_
      obtain ⟨y, hy, e⟩ := h
      rcases List.mem_cons.1 hy with rfl | hy
      · exact absurd e hx
      · exact ⟨y, hy, e⟩

/-- C185 is violated: `pdf` does not vanish off the simplex: it is positive at every vector of positive numbers, whatever their sum. -/
theorem C185_dirichlet_pdf_off_simplex_violated (hal : ∀ i, (al i).Is (a i)) (ha : ∀ i, 0 < a i) (x : Fin (m + 1) → F64)
    (r : Fin (m + 1) → ℝ) (hx : ∀ i, (x i).Is (r i)) (hr : ∀ i, 0 < r i) :
    ∃ v, ((Dirichlet.newUnchecked al).pdf x).Is v ∧ 0 < v := by
  refine ⟨_, (C100_dirichlet_pdf hal ha).1 x r hx hr, ?_⟩
  have hA : 0 < ∑ i, a i := Finset.sum_pos (fun i _ => ha i) ⟨0, Finset.mem_univ _⟩
  refine mul_pos (div_pos (Real.Gamma_pos_of_pos hA) (Finset.prod_pos fun i _ => Real.Gamma_pos_of_pos (ha i))) ?_
  exact Finset.prod_pos fun i _ => Real.rpow_pos_of_pos (hr i) _

/-- C186 is violated: `pdf` is NaN as soon as some coordinate is negative, or is zero with concentration exactly 1 -/
theorem C186_dirichlet_pdf_boundary_violated (hal : ∀ i, (al i).Is (a i)) (x : Fin (m + 1) → F64) (r : Fin (m + 1) → ℝ)
    (hx : ∀ i, (x i).Is (r i)) (hb : ∃ i, r i < 0 ∨ (r i = 0 ∧ a i = 1)) :
    (Dirichlet.newUnchecked al).pdf x = nan := by
  unfold Dirichlet.pdf Dirichlet.logPdf
  rw [List.ofFn_eq_map, List.foldl_map]
  obtain ⟨i, hi⟩ := hb
  have := foldl_nan_mem (fun i : Fin (m + 1) => (al i - 1) * (x i).ln) (List.finRange (m + 1)) (-(Dirichlet.newUnchecked al).lnBetaAlphas)
    ⟨i, List.mem_finRange i, ?_⟩
  · exact (congrArg F64.exp this).trans rfl
  · rcases hi with hi | ⟨hi, hai⟩
    · rw [ln_neg_nan (hx i) hi, mul_nan]
    · have h0 : (al i - 1).Is 0 := Is.congr ((hal i).sub Is.one) (by rw [hai, sub_self])
      rw [ln_zero (hi ▸ hx i)]
      rcases h0 with h | ⟨h, _⟩ <;> rw [h] <;> (show F64.mul _ _ = _; simp [F64.mul])

/-! ### modes -/

theorem dir_modes (hal : ∀ i, (al i).Is (a i)) (hne : ∑ i, a i ≠ m + 1) :
    ∃ x, (Dirichlet.newUnchecked al).modes = [x] ∧ ∀ i, (x i).Is ((a i - 1) / (∑ i, a i - (m + 1))) := by
  refine ⟨_, rfl, fun i => ?_⟩
  have := ((hal i).sub Is.one).div ((dir_alpha0 hal).sub (Is.ofNat (m + 1))) (by push_cast; exact sub_ne_zero.2 hne)
  exact Is.congr this (by push_cast; rfl)

/-- C187: when every concentration is at least 1 and not all are 1, `modes` is a single point of the simplex at which the density is
largest. -/
theorem C187_dirichlet_modes_partial (hal : ∀ i, (al i).Is (a i)) (ha : ∀ i, 1 ≤ a i) (hne : ∃ i, a i ≠ 1) :
    ∃ x r, (Dirichlet.newUnchecked al).modes = [x] ∧ (∀ i, (x i).Is (r i)) ∧ IsSimplexMode (dirichletPDF a) r := by
  have hW : 0 < ∑ i, (a i - 1) := by
    obtain ⟨i, hi⟩ := hne
    exact Finset.sum_pos' (fun j _ => sub_nonneg.2 (ha j)) ⟨i, Finset.mem_univ i, sub_pos.2 (lt_of_le_of_ne (ha i) (Ne.symm hi))⟩
  have hWe : ∑ i, (a i - 1) = ∑ i, a i - (m + 1) := by rw [Finset.sum_sub_distrib]; simp
  obtain ⟨x, h1, h2⟩ := dir_modes hal (a := a) (by intro h; rw [hWe, h] at hW; simp at hW)
  refine ⟨x, _, h1, h2, ⟨fun i => ?_, ?_⟩, fun y hy => ?_⟩
  · rw [← hWe]; exact div_nonneg (sub_nonneg.2 (ha i)) hW.le
  · rw [← hWe, ← Finset.sum_div, div_self hW.ne']
  · unfold dirichletPDF
    rw [← hWe]
    refine mul_le_mul_of_nonneg_left (simplex_prod_le (fun i => sub_nonneg.2 (ha i)) hW hy.1 hy.2) ?_
    exact div_nonneg (Real.Gamma_nonneg_of_nonneg (Finset.sum_nonneg fun i _ => by linarith [ha i]))
      (Finset.prod_nonneg fun i _ => Real.Gamma_nonneg_of_nonneg (by linarith [ha i]))

/-- the density is unbounded on the open simplex when some concentration is below 1 (two or more categories) -/
theorem dirichlet_unbounded (hm : 1 ≤ m) (ha : ∀ i, 0 < a i) {i : Fin (m + 1)} (hi : a i < 1) (M : ℝ) :
    ∃ y : Fin (m + 1) → ℝ, (∀ j, 0 < y j) ∧ ∑ j, y j = 1 ∧ M < dirichletPDF a y := by
  have hm' : (0:ℝ) < m := by exact_mod_cast hm
  have hA : 0 < ∑ i, a i := Finset.sum_pos (fun i _ => ha i) ⟨0, Finset.mem_univ _⟩
  have hC : 0 < Real.Gamma (∑ i, a i) / ∏ i, Real.Gamma (a i) :=
    div_pos (Real.Gamma_pos_of_pos hA) (Finset.prod_pos fun i _ => Real.Gamma_pos_of_pos (ha i))
  -- the point with coordinate ε at i, the rest equal
  let y : ℝ → Fin (m + 1) → ℝ := fun e j => if j = i then e else (1 - e) / m
  have hy : ∀ e, dirichletPDF a (y e) = Real.Gamma (∑ i, a i) / (∏ i, Real.Gamma (a i)) *
      (e ^ (a i - 1) * ∏ j ∈ Finset.univ.erase i, ((1 - e) / m) ^ (a j - 1)) := fun e => by
    unfold dirichletPDF
    congr 1
    rw [← Finset.mul_prod_erase Finset.univ (fun j => y e j ^ (a j - 1)) (Finset.mem_univ i)]
    congr 1
    · simp [y]
    · exact Finset.prod_congr rfl fun j hj => by simp [y, Finset.ne_of_mem_erase hj]
  have hlim : Tendsto (fun e => dirichletPDF a (y e)) (nhdsWithin 0 (Set.Ioi 0)) atTop := by
    simp only [hy]
    refine Tendsto.const_mul_atTop hC ?_
    have h1 : Tendsto (fun e : ℝ => e ^ (a i - 1)) (nhdsWithin 0 (Set.Ioi 0)) atTop := tendsto_rpow_neg_nhdsGT_zero (by linarith)
    have h2 : Tendsto (fun e : ℝ => ∏ j ∈ Finset.univ.erase i, ((1 - e) / m) ^ (a j - 1)) (nhdsWithin 0 (Set.Ioi 0))
        (nhds (∏ j ∈ Finset.univ.erase i, ((1 - 0) / m) ^ (a j - 1))) := by
      refine tendsto_nhdsWithin_of_tendsto_nhds (tendsto_finsetProd _ fun j _ => ?_)
      have : ContinuousAt (fun e : ℝ => ((1 - e) / m) ^ (a j - 1)) 0 := by
        refine ContinuousAt.rpow_const (by fun_prop) (Or.inl ?_)
        have : (0:ℝ) < (1 - 0) / m := by positivity
        exact this.ne'
      exact this
    refine h1.atTop_mul_pos ?_ h2
    exact Finset.prod_pos fun j _ => Real.rpow_pos_of_pos (by rw [sub_zero]; positivity) _
  have hev : ∀ᶠ e in nhdsWithin (0:ℝ) (Set.Ioi 0), M < dirichletPDF a (y e) := hlim.eventually_gt_atTop M
  have hlt : ∀ᶠ e in nhdsWithin (0:ℝ) (Set.Ioi 0), e ∈ Set.Ioo (0:ℝ) 1 := Ioo_mem_nhdsGT one_pos
  obtain ⟨e, he1, he2⟩ := (hev.and hlt).exists
  refine ⟨y e, fun j => ?_, ?_, he1⟩
  · show 0 < if j = i then e else (1 - e) / m
    split_ifs
    · exact he2.1
    · exact div_pos (by linarith [he2.2]) hm'
  · rw [← Finset.add_sum_erase _ _ (Finset.mem_univ i)]
    have : ∑ j ∈ Finset.univ.erase i, y e j = m * ((1 - e) / m) := by
      rw [Finset.sum_congr rfl fun j hj => (by simp [y, Finset.ne_of_mem_erase hj] : y e j = (1 - e) / m)]
      simp
    rw [this]
    simp only [y, if_true]
    field_simp; ring

/-- C187 is violated: if some concentration is below 1 (and α₀ ≠ N), the density is unbounded on the simplex, so it has no mode, but `modes`
still returns one point. -/
theorem C187_dirichlet_modes_violated (hm : 1 ≤ m) (hal : ∀ i, (al i).Is (a i)) (ha : ∀ i, 0 < a i) (hi : ∃ i, a i < 1)
    (hne : ∑ i, a i ≠ m + 1) :
    ∃ x r, (Dirichlet.newUnchecked al).modes = [x] ∧ (∀ i, (x i).Is (r i)) ∧ ¬ IsSimplexMode (dirichletPDF a) r := by
  obtain ⟨x, h1, h2⟩ := dir_modes hal hne
  refine ⟨x, _, h1, h2, fun h => ?_⟩
  obtain ⟨i, hi⟩ := hi
  obtain ⟨y, y1, y2, y3⟩ := dirichlet_unbounded hm ha hi (dirichletPDF a fun i => (a i - 1) / (∑ i, a i - (m + 1)))
  exact absurd (h.2 y ⟨fun j => (y1 j).le, y2⟩) (not_le.2 y3)

/-- C187 is violated: for the uniform law (all concentrations 1) every point is a mode, but `modes` is a vector of NaNs. -/
theorem C187_dirichlet_uniform_modes_violated (hal : ∀ i, (al i).Is 1) :
    (∀ r : Fin (m + 1) → ℝ, OnSimplex r → IsSimplexMode (dirichletPDF fun _ => 1) r) ∧
    (Dirichlet.newUnchecked al).modes = [fun _ => nan] := by
  constructor
  · intro r hr
    refine ⟨hr, fun y _ => ?_⟩
    simp [dirichletPDF]
  · unfold Dirichlet.modes
    dsimp only
    congr 1
    funext i
    have h1 : (al i - 1).Is 0 := Is.congr ((hal i).sub Is.one) (by norm_num)
    have h2 : ((Dirichlet.newUnchecked al).alpha0 - F64.ofNat (m + 1)).Is 0 :=
      Is.congr ((dir_alpha0 hal).sub (Is.ofNat (m + 1))) (by simp)
    show (al i - 1) / _ = nan
    rcases h1 with h1 | ⟨h1, _⟩ <;> rcases h2 with h2 | ⟨h2, _⟩ <;> rw [h1, h2] <;> (show F64.div _ _ = _; simp [F64.div])
end

section
attribute [local instance] exactFP exactFP_exact
/-- concentrations meeting the hypotheses: (1/2, 2, 3) for the law and the sampler, (1, 2, 3) for the mode -/
example : ∃ (al : Fin 3 → F64) (a : Fin 3 → ℝ), (∀ i, (al i).Is (a i)) ∧ (∀ i, 0 < a i) ∧ (∃ i, a i < 1) ∧ ∑ i, a i ≠ 2 + 1 :=
  ⟨fun i => F64.fin (![1 / 2, 2, 3] i), ![1 / 2, 2, 3], fun i => Is.fin _, fun i => by fin_cases i <;> norm_num,
    ⟨0, by norm_num⟩, by rw [Fin.sum_univ_three]; show (1 / 2 : ℝ) + 2 + 3 ≠ 2 + 1; norm_num⟩
example : ∃ (al : Fin 3 → F64) (a : Fin 3 → ℝ), (∀ i, (al i).Is (a i)) ∧ (∀ i, 1 ≤ a i) ∧ (∃ i, a i ≠ 1) :=
  ⟨fun i => F64.fin (![1, 2, 3] i), ![1, 2, 3], fun i => Is.fin _, fun i => by fin_cases i <;> norm_num, ⟨1, by norm_num⟩⟩
end
end Rstat
