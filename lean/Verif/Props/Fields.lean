import Verif.Model.Fields
import Verif.Model.Display
import Verif.Props.Mixture
import Verif.Props.Dirichlet
import Verif.Props.MixtureLaws

/-! Properties C245, C246: assigning the public fields of a built distribution. The wanted property: after any history of assignments the
object answers like one built afresh from the present values of its public fields. -/
set_option linter.unusedSectionVars false
namespace Rstat
open F64 Spec

/-! ### C245: mixtures -/
section
variable [FP] {C S P X σ : Type} [Support S]

theorem assigns_support (m : Mixture C S) : ∀ l : List (MixtureAssign C), (m.assigns l).support = m.support
  | [] => rfl
  | a :: l => by
    rw [Mixture.assigns, List.foldl_cons]
    exact (assigns_support (m.assign a) l).trans (by cases a <;> rfl)

theorem assigns_length {N : ℕ} : ∀ (l : List (MixtureAssign C)) (m : Mixture C S), m.weights.ps.length = N → m.components.length = N →
    (∀ a ∈ l, Mixture.Fitting N a) → (m.assigns l).weights.ps.length = N ∧ (m.assigns l).components.length = N
  | [], m, hw, hc, _ => ⟨hw, hc⟩
  | a :: l, m, hw, hc, h => by
    rw [Mixture.assigns, List.foldl_cons]
    have ha := h a (by simp)
    refine assigns_length l (m.assign a) ?_ ?_ fun b hb => h b (by simp [hb])
    · cases a with
      | weights w => exact ha
      | components cs => exact hw
    · cases a with
      | weights w => exact hc
      | components cs => exact ha

/-- C245, the part that holds: for every mixture built by `new`, every history of assignments to `weights` and `components`, and every arithmetic,
building a mixture from the present fields succeeds and gives one with the same `weights`, `components`, `params`, `cdf`, `pdf`, `mean`, `variance`
and the same draws; the last assignment to each field is the one that counts. Missing: `support` (see C245_stale_support_violated). -/
theorem C245_fields_partial (D : Comp C S P X σ) {ws : List F64} {cs : List C} {m : Mixture C S} (h : Mixture.new D ws cs = .ok (.ok m))
    (l : List (MixtureAssign C)) (hl : ∀ a ∈ l, Mixture.Fitting ws.length a) :
    (∃ f, Mixture.newUnchecked D (m.assigns l).weights.ps (m.assigns l).components = .ok f ∧
      f.weights = (m.assigns l).weights ∧ f.components = (m.assigns l).components ∧ f.params D = (m.assigns l).params D ∧
      (∀ x, f.cdf D x = (m.assigns l).cdf D x) ∧ (∀ x, f.pdf D x = (m.assigns l).pdf D x) ∧
      f.mean D = (m.assigns l).mean D ∧ f.variance D = (m.assigns l).variance D ∧
      ∀ pr g s, f.sample D pr g s = (m.assigns l).sample D pr g s) ∧
    (∀ w, (m.assigns (l ++ [.weights w])).weights = w ∧ (m.assigns (l ++ [.weights w])).components = (m.assigns l).components) ∧
    (∀ c, (m.assigns (l ++ [.components c])).components = c ∧ (m.assigns (l ++ [.components c])).weights = (m.assigns l).weights) := by
  obtain ⟨hlen, hs, hw, hc⟩ := Mixture.new_ok D ws cs m h
  obtain ⟨h1, -⟩ := (C05_simplex_new_iff _ m.weights).1 hw
  obtain ⟨e1, e2⟩ := assigns_length l m (N := ws.length) (by rw [h1]) (by rw [hc, hlen]) hl
  refine ⟨?_, fun w => ?_, fun c => ?_⟩
  · have hne : cs ≠ [] := by rintro rfl; simp [Mixture.computeSupport] at hs
    have hpos : 0 < ws.length := by rw [← hlen]; exact List.length_pos_iff.2 hne
    obtain ⟨c, cs', hcs⟩ : ∃ c cs', (m.assigns l).components = c :: cs' := by
      cases hh : (m.assigns l).components with
      | nil => rw [hh] at e2; simp at e2; omega
      | cons c cs' => exact ⟨c, cs', rfl⟩
    refine ⟨⟨(m.assigns l).weights, (m.assigns l).components, cs'.foldl (fun acc c => Support.unionClosure acc (D.support c)) (D.support c)⟩, ?_,
      rfl, rfl, rfl, fun _ => rfl, fun _ => rfl, rfl, rfl, fun _ _ _ => rfl⟩
    unfold Mixture.newUnchecked
    rw [hcs]
    rfl
  · simp only [Mixture.assigns, List.foldl_append, List.foldl_cons, List.foldl_nil, Mixture.assign, and_self]
  · simp only [Mixture.assigns, List.foldl_append, List.foldl_cons, List.foldl_nil, Mixture.assign, and_self]
end

/-- C245, violated: `support` is computed once. Whatever is assigned later, the reported support stays the hull of the supports of the *original*
components; so as soon as a present component has a support that is not inside it, the reported support is not the hull of the present ones, and it
differs from the support of the mixture built from the present fields. In every arithmetic. -/
theorem C245_stale_support_violated [FP] {C P X σ : Type} (D : Comp C Interval P X σ) {ws : List F64} {cs : List C} {m : Mixture C Interval}
    (h : Mixture.new D ws cs = .ok (.ok m)) (l : List (MixtureAssign C)) (hl : ∀ a ∈ l, Mixture.Fitting ws.length a) :
    IsHull (cs.map D.support) (m.assigns l).support ∧
    ∀ c ∈ (m.assigns l).components, (¬ ((m.assigns l).support.lo ≤ (D.support c).lo ∧ (D.support c).hi ≤ (m.assigns l).support.hi)) →
      ¬ IsHull ((m.assigns l).components.map D.support) (m.assigns l).support ∧
      ∀ f, Mixture.newUnchecked D (m.assigns l).weights.ps (m.assigns l).components = .ok f → f.support ≠ (m.assigns l).support := by
  rw [assigns_support]
  refine ⟨C32_new_support D ws cs m h, fun c hc hn => ?_⟩
  have key : ¬ IsHull ((m.assigns l).components.map D.support) m.support := fun hh => hn (hh.1 _ (List.mem_map_of_mem hc))
  refine ⟨key, fun f hf e => key ?_⟩
  unfold Mixture.newUnchecked at hf
  cases hcs : (m.assigns l).components with
  | nil => rw [hcs] at hc; simp at hc
  | cons c0 cs' =>
    rw [hcs] at hf
    simp only [Mixture.computeSupport, Except.ok.injEq] at hf
    rw [← e, ← hf, List.map_cons]
    have := foldl_hull (cs'.map D.support) (D.support c0)
    rwa [List.foldl_map] at this

/-- a component type for the examples: the point mass at `a`, with support `[a, a]` -/
noncomputable def ptComp : Comp ℝ Interval ℝ F64 ℕ :=
  ⟨fun a => ⟨a, a⟩, id, id, fun _ _ => ⟨F64.fin (1 / 2)⟩, fun _ _ => F64.fin (1 / 2), fun a => F64.fin a, fun _ => F64.fin 0,
    fun a s => (F64.fin a, s + 1)⟩

section
open Classical
attribute [local instance] exactFP exactFP_exact
/-- C245 (non-vacuity): a mixture of two point masses at 0 and 2; after `m.components = [7, 7]` it still reports the support [0, 2], but every draw is 7 -/
example (pr : Profile) : ∃ m, Mixture.new ptComp [F64.fin (1/4), F64.fin (3/4)] [0, 2] = .ok (.ok m) ∧
    (∀ a ∈ [MixtureAssign.components [(7 : ℝ), 7]], Mixture.Fitting 2 a) ∧ (m.assigns [.components [7, 7]]).support = ⟨0, 2⟩ ∧
    (∀ g s0, ((m.assigns [.components [7, 7]]).sample ptComp pr g s0).1 = .ok (F64.fin 7)) ∧
    ∃ c ∈ (m.assigns [.components [(7 : ℝ), 7]]).components,
      ¬ ((m.assigns [.components [7, 7]]).support.lo ≤ (ptComp.support c).lo ∧ (ptComp.support c).hi ≤ (m.assigns [.components [7, 7]]).support.hi) := by
  obtain ⟨m, hm⟩ := mixture_ok (D := ptComp) (rs := [1/4, 3/4]) (cs := [0, 2]) rfl (by simp) (by norm_num) (by norm_num)
  have hm' : Mixture.new ptComp [F64.fin (1/4), F64.fin (3/4)] [0, 2] = .ok (.ok m) := hm
  obtain ⟨-, hs, hw, hc⟩ := Mixture.new_ok _ _ _ m hm'
  obtain ⟨h1, -⟩ := (C05_simplex_new_iff _ m.weights).1 hw
  have hs' : m.support = ⟨0, 2⟩ := by
    simp only [Mixture.computeSupport, List.foldl_cons, List.foldl_nil, Except.ok.injEq] at hs
    rw [← hs]
    show Interval.mk (min ((0 : ℝ) : EReal) ((2 : ℝ) : EReal)) (max ((0 : ℝ) : EReal) ((2 : ℝ) : EReal)) = _
    rw [min_eq_left (by exact_mod_cast (by norm_num : (0 : ℝ) ≤ 2)), max_eq_right (by exact_mod_cast (by norm_num : (0 : ℝ) ≤ 2))]
    rfl
  refine ⟨m, hm', by simp [Mixture.Fitting], by rw [assigns_support, hs'], fun g s0 => ?_, 7, by simp [Mixture.assigns, Mixture.assign], ?_⟩
  · obtain ⟨i, c, hi, -, he⟩ := C36_sample ptComp pr g (m.assigns [.components [7, 7]]) s0
      (by simp [Mixture.assigns, Mixture.assign, h1]) (by simp [Mixture.assigns, Mixture.assign, h1])
    have hc7 : c = 7 := by
      have hi' : ([(7 : ℝ), 7])[i]? = some c := hi
      match i, hi' with
      | 0, hi' => simpa using hi'.symm
      | 1, hi' => simpa using hi'.symm
    rw [he, hc7]
    rfl
  · rw [assigns_support, hs']
    intro hh
    have := hh.2
    have h72 : ((7 : ℝ) : EReal) ≤ ((2 : ℝ) : EReal) := this
    rw [EReal.coe_le_coe_iff] at h72
    norm_num at h72
end

/-! ### C246: the Dirichlet law -/

/-- C246, the part that holds: after any assignment to the public `alphas`, `params`, the printed text and the draws are those of a Dirichlet law built
from the present concentrations, in every arithmetic; and an assignment of the value already there changes nothing. Missing: `mean`, `variance`,
`covariance`, `modes`, `pdf`, `log_pdf` (see C246_stale_violated). -/
theorem C246_fields_partial [FP] [NumFmt] {n : ℕ} (d : Dirichlet n) (b : Fin n → F64) :
    (d.setAlphas b).params = b ∧ (d.setAlphas b).fmt = (Dirichlet.newUnchecked b).fmt ∧
    (∀ {σ : Type} (g : GammaRng σ) (s : σ), (d.setAlphas b).sample g s = (Dirichlet.newUnchecked b).sample g s) ∧
    d.setAlphas d.params = d ∧ ∀ c, (d.setAlphas c).setAlphas b = d.setAlphas b :=
  ⟨rfl, rfl, fun _ _ => rfl, rfl, fun _ => rfl⟩

section
variable [FP] [FP.Exact] {m : ℕ} {al be : Fin (m + 1) → F64} {a b : Fin (m + 1) → ℝ}

/-- C246, violated: the normaliser, the total and the normalised concentrations are computed once. After assigning concentrations `b` to a law built
from `a`: `mean` is still that of the *old* law; `variance` is `b_i (Σa - b_i) / ((Σa)² (Σa + 1))`; `pdf` is the new density times
the constant `B(b) / B(a)`. -/
theorem C246_stale_violated (hal : ∀ i, (al i).Is (a i)) (ha : ∀ i, 0 < a i) (hbe : ∀ i, (be i).Is (b i)) (hb : ∀ i, 0 < b i) :
    (∀ i, (((Dirichlet.newUnchecked al).setAlphas be).mean i).Is (a i / ∑ j, a j)) ∧
    (∀ i, (((Dirichlet.newUnchecked al).setAlphas be).variance i).Is (b i * (∑ j, a j - b i) / ((∑ j, a j) ^ 2 * (∑ j, a j + 1)))) ∧
    ∀ (x : Fin (m + 1) → F64) (r : Fin (m + 1) → ℝ), (∀ i, (x i).Is (r i)) → (∀ i, 0 < r i) →
      (((Dirichlet.newUnchecked al).setAlphas be).pdf x).Is
        (dirichletPDF b r * (((∏ i, Real.Gamma (b i)) / Real.Gamma (∑ i, b i)) / ((∏ i, Real.Gamma (a i)) / Real.Gamma (∑ i, a i)))) := by
  have hA : 0 < ∑ i, a i := Finset.sum_pos (fun i _ => ha i) ⟨0, Finset.mem_univ _⟩
  have hB : 0 < ∑ i, b i := Finset.sum_pos (fun i _ => hb i) ⟨0, Finset.mem_univ _⟩
  have h0 := dir_alpha0 hal
  have hn := (h0.mul h0).mul (h0.add Is.one)
  have hn0 : (∑ i, a i) * (∑ i, a i) * (∑ i, a i + 1) ≠ 0 := by positivity
  refine ⟨fun i => (hal i).div h0 hA.ne', fun i => ?_, fun x r hx hr => ?_⟩
  · refine Is.congr (((hbe i).neg.mul ((hbe i).sub h0)).div hn hn0) ?_
    rw [sq]; congr 1; ring
  · have := dirFoldl_is (fun i : Fin (m + 1) => (be i - 1) * (x i).ln) (fun i => (b i - 1) * Real.log (r i)) (List.finRange (m + 1))
      (fun i _ => ((hbe i).sub Is.one).mul ((hx i).ln (hr i))) (dir_lnBeta hal ha).neg
    rw [← List.ofFn_eq_map, List.sum_ofFn] at this
    unfold Dirichlet.pdf Dirichlet.logPdf
    rw [List.ofFn_eq_map, List.foldl_map]
    refine Is.congr this.exp ?_
    have hG : ∀ i, 0 < Real.Gamma (a i) := fun i => Real.Gamma_pos_of_pos (ha i)
    have hGb : ∀ i, 0 < Real.Gamma (b i) := fun i => Real.Gamma_pos_of_pos (hb i)
    have p1 : 0 < ∏ i, Real.Gamma (a i) := Finset.prod_pos fun i _ => hG i
    have p2 : 0 < ∏ i, Real.Gamma (b i) := Finset.prod_pos fun i _ => hGb i
    have g1 := Real.Gamma_pos_of_pos hA
    have g2 := Real.Gamma_pos_of_pos hB
    rw [dirichletPDF, Real.exp_add, neg_sub, Real.exp_sub, Real.exp_log g1, Real.exp_sum, Real.exp_sum]
    have e1 : ∏ i, Real.exp (Real.log (Real.Gamma (a i))) = ∏ i, Real.Gamma (a i) := Finset.prod_congr rfl fun i _ => Real.exp_log (hG i)
    have e2 : ∏ i, Real.exp ((b i - 1) * Real.log (r i)) = ∏ i, r i ^ (b i - 1) :=
      Finset.prod_congr rfl fun i _ => by rw [Real.rpow_def_of_pos (hr i), mul_comm]
    rw [e1, e2]
    field_simp

/-- C246, violated in particular: for every law and coordinate there are positive finite concentrations whose assignment makes the reported variance of
that coordinate *negative*; and any assignment that changes the proportion of a coordinate makes its reported mean differ from the mean of the law that
the present concentrations describe. -/
theorem C246_impossible_moments_violated (hal : ∀ i, (al i).Is (a i)) (ha : ∀ i, 0 < a i) (i : Fin (m + 1)) :
    (∃ be : Fin (m + 1) → F64, (∀ j, ∃ r : ℝ, 0 < r ∧ (be j).Is r) ∧ ∃ v : ℝ, v < 0 ∧ (((Dirichlet.newUnchecked al).setAlphas be).variance i).Is v) ∧
    ∀ (be : Fin (m + 1) → F64) (b : Fin (m + 1) → ℝ), (∀ j, (be j).Is (b j)) → (∀ j, 0 < b j) → a i / ∑ j, a j ≠ b i / ∑ j, b j →
      ∃ v : ℝ, (((Dirichlet.newUnchecked al).setAlphas be).mean i).Is v ∧ v ≠ ∫ x, x i ∂(dirichletLaw b) := by
  have hA : 0 < ∑ i, a i := Finset.sum_pos (fun i _ => ha i) ⟨0, Finset.mem_univ _⟩
  constructor
  · refine ⟨fun _ => F64.fin (∑ j, a j + 1), fun j => ⟨_, by positivity, Is.fin _⟩, _, ?_,
      (C246_stale_violated hal ha (be := fun _ => F64.fin (∑ j, a j + 1)) (b := fun _ => ∑ j, a j + 1) (fun _ => Is.fin _) (fun _ => by positivity)).2.1 i⟩
    refine div_neg_of_neg_of_pos (mul_neg_of_pos_of_neg (by positivity) (by linarith)) (by positivity)
  · intro be b hbe hb hne
    refine ⟨_, (C246_stale_violated hal ha hbe hb).1 i, ?_⟩
    rw [(dirichlet_mean hb i).2]
    exact hne
end

section
attribute [local instance] exactFP exactFP_exact
/-- C246 (non-vacuity): the law built from (1, 1), then assigned (3, 1): mean stays 1/2, variance of the first coordinate is -1/4 -/
example : (((Dirichlet.newUnchecked ![F64.fin 1, F64.fin 1]).setAlphas ![F64.fin 3, F64.fin 1]).mean 0).Is (1 / 2) ∧
    (((Dirichlet.newUnchecked ![F64.fin 1, F64.fin 1]).setAlphas ![F64.fin 3, F64.fin 1]).variance 0).Is (-(1 / 4)) := by
  have h := C246_stale_violated (al := ![F64.fin 1, F64.fin 1]) (be := ![F64.fin 3, F64.fin 1]) (a := ![1, 1]) (b := ![3, 1])
    (fun i => by fin_cases i <;> exact Is.fin _) (fun i => by fin_cases i <;> norm_num) (fun i => by fin_cases i <;> exact Is.fin _)
    (fun i => by fin_cases i <;> norm_num)
  have e : ∑ j : Fin 2, ![(1 : ℝ), 1] j = 2 := by rw [Fin.sum_univ_two]; norm_num
  have h1 := h.1 0
  have h2 := h.2.1 0
  change Is _ (_ / ∑ j : Fin 2, ![(1 : ℝ), 1] j) at h1
  change Is _ (_ * (∑ j : Fin 2, ![(1 : ℝ), 1] j - _) / ((∑ j : Fin 2, ![(1 : ℝ), 1] j) ^ 2 * (∑ j : Fin 2, ![(1 : ℝ), 1] j + 1))) at h2
  rw [e] at h1 h2
  refine ⟨h1.congr ?_, h2.congr ?_⟩ <;> norm_num
end
end Rstat
