import Verif.Props.Dist.Categorical
import Verif.Props.Mixture
import Verif.Model.Traits

/-! C221: the counts the API reports: `size_hint` of the sampling iterator, `n_categories`, `n_components`. -/
namespace Rstat
open F64 Spec

/-- C221: `size_hint` of the iterator of samples is right: it really yields at least the lower bound of items, it has no upper bound, and no
upper bound exists: it yields as many items as are asked for, for every number -/
theorem C221_sampler_size_hint {σ X : Type} (it : Sampler σ X) :
    (∀ n, n ≤ it.sizeHint.1 → (it.takeN n).1.length = n) ∧ it.sizeHint.2 = none ∧ it.sizeHint.1 = 2 ^ 64 - 1 ∧
    ∀ n, (it.takeN n).1.length = n := by
  have key : ∀ n, ∀ it : Sampler σ X, (it.takeN n).1.length = n := by
    intro n
    induction n with
    | zero => intro it; rfl
    | succ n ih =>
      intro it
      show ((it.sample it.rng).1 :: (Sampler.takeN n { it with rng := (it.sample it.rng).2 }).1).length = n + 1
      rw [List.length_cons, ih]
  exact ⟨fun n _ => key n it, rfl, rfl, fun n => key n it⟩

/-- C221: `n_categories` counts the categories: `pmf` answers exactly for the indices below it -/
theorem C221_n_categories [FP] {ps : List F64} {d : Categorical} (h : Categorical.new ps = .ok d) :
    d.nCategories = ps.length ∧ ∀ i, (∃ p, d.pmf i = .ok p) ↔ i < d.nCategories := by
  have e := (Categorical.ps_eq h).1
  refine ⟨congrArg List.length e, fun i => ?_⟩
  unfold Categorical.pmf Categorical.nCategories
  cases h : d.ps.ps[i]? with
  | none => exact ⟨fun hp => (by obtain ⟨_, hp⟩ := hp; cases hp), fun hi => by rw [List.getElem?_eq_getElem hi] at h; cases h⟩
  | some p => exact ⟨fun _ => (List.getElem?_eq_some_iff.1 h).1, fun _ => ⟨_, rfl⟩⟩

/-- C221: an accepted mixture has as many weights and as many components as `n_components` says (the length of the weights) -/
theorem C221_n_components [FP] {C S P X σ : Type} [Support S] (D : Comp C S P X σ) (ws : List F64) (cs : List C) (m : Mixture C S)
    (h : Mixture.new D ws cs = .ok (.ok m)) :
    m.components.length = Mixture.nComponents ws.length ∧ m.weights.ps.length = Mixture.nComponents ws.length := by
  obtain ⟨h1, -, h3, h4⟩ := Mixture.new_ok D ws cs m h
  have e : m.weights.ps = ws := ((C05_simplex_new_iff ws m.weights).1 h3).1
  exact ⟨by rw [h4]; exact h1, by rw [e]; rfl⟩

/-! ### non-vacuity -/
section
attribute [local instance] exactFP exactFP_exact
example : (Sampler.takeN 3 (⟨fun s => (s, s + 1), 5⟩ : Sampler ℕ ℕ)).1 = [5, 6, 7] := rfl
example : ∃ d, Categorical.new (([1/2, 1/4, 1/4] : List ℝ).map F64.fin) = .ok d ∧ d.nCategories = 3 := by
  obtain ⟨d, h⟩ := cat_example
  exact ⟨d, h, (C221_n_categories h).1⟩
end
end Rstat
