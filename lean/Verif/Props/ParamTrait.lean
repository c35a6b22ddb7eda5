import Verif.Props.Params
import Verif.Props.Probability
import Verif.Model.ParamTrait

/-! Property C230: the `Param` interface. `constraints()` describes what the checked constructor accepts, and `value()`, `into_value()` give
back what was passed. -/
namespace Rstat
open F64 Spec

namespace Spec
/-- `constraints()` returns, and a value passes all the constraints it lists exactly when the constructor accepts that value -/
def Advertises {P V E : Type} (i : ParamImpl P V) (new : V → Except E P) : Prop :=
  ∃ cs, i.constraints = .ok cs ∧ ∀ v, (∀ c ∈ cs, c v = true) ↔ ∃ p, new v = .ok p
/-- whatever the constructor makes of `v`, `value()` and `into_value()` give `v` back -/
def GivesBack {P V E : Type} (i : ParamImpl P V) (new : V → Except E P) : Prop :=
  ∀ v p, new v = .ok p → i.value p = v ∧ i.intoValue p = v
end Spec

theorem check_ok_iff {t : Ty} (c : Cst t) (v w : t.Val) : c.check v = .ok w ↔ c.sat v = true ∧ w = v := by
  rcases C12_check_returns_value c v with ⟨hs, ha, -⟩ | ⟨hs, ⟨e, he, -⟩, -⟩
  · rw [show c.check v = .ok v from ha]; simp [hs, eq_comm]
  · rw [he]; simp [hs]

theorem tests_all {t : Ty} (cs : List (Cst t)) (v : t.Val) : (∀ c ∈ tests cs, c v = true) ↔ ∀ c ∈ cs, c.sat v = true := by
  simp [tests]

/-- C230: every parameter declared with `param!` (Loc, Scale, Rate, Shape, DOF, Count, at f64, i64, usize or arrays) and Corr -/
theorem C230_declared_params {t : Ty} (k : ParamKind t) : Advertises k.impl k.new ∧ GivesBack k.impl k.new := by
  refine ⟨⟨_, rfl, fun v => ?_⟩, fun v p h => ?_⟩
  · rw [tests_all]; unfold ParamKind.new
    cases hk : k.cst with
    | none => simp
    | some c => simp [check_ok_iff]
  · revert h; unfold ParamKind.new
    cases hk : k.cst with
    | none => intro h; cases h; exact ⟨rfl, rfl⟩
    | some c => intro h; rw [((check_ok_iff c v p).1 h).2]; exact ⟨rfl, rfl⟩

/-- C230: probabilities -/
theorem C230_probability : Advertises Probability.impl Probability.new ∧ GivesBack Probability.impl Probability.new := by
  refine ⟨⟨_, rfl, fun v => ?_⟩, fun v p h => ?_⟩
  · refine (tests_all (t := Ty.f64) _ v).trans ?_
    unfold Probability.new
    have h0 : (0 : F64) = fin 0 := rfl
    have h1 : (1 : F64) = fin 1 := rfl
    simp only [List.mem_singleton, forall_eq, Cst.sat, Bool.and_eq_true]
    have d : ∀ (P : Prop) (i : Decidable P), (@decide P i = true) = P := fun P i => decide_eq_true_eq
    simp only [d]
    constructor
    · rintro ⟨ha, hb⟩
      exact ⟨⟨v⟩, by rw [if_pos]; exact ⟨ha, hb⟩⟩
    · rintro ⟨p, hp⟩
      split at hp
      · assumption
      · cases hp
  · unfold Probability.new at h
    split at h
    · cases h; exact ⟨rfl, rfl⟩
    · cases h

/-- C230: diagonal (and paired) covariances -/
theorem C230_diagonal_covariance (n : ℕ) :
    Advertises (Covariance.diagonalImpl n) Covariance.diagonal ∧ GivesBack (Covariance.diagonalImpl n) Covariance.diagonal := by
  refine ⟨⟨_, rfl, fun v => ?_⟩, fun v p h => ?_⟩
  · refine (tests_all (t := .arr n Ty.f64) _ v).trans ?_
    simp only [List.mem_singleton, forall_eq, Covariance.diagonal, mapError_ok_iff]
    exact ⟨fun h => ⟨v, (check_ok_iff (t := .arr n Ty.f64) _ v v).2 ⟨h, rfl⟩⟩, fun ⟨p, h⟩ => ((check_ok_iff (t := .arr n Ty.f64) _ v p).1 h).1⟩
  · rw [Covariance.diagonal, mapError_ok_iff] at h
    have := ((check_ok_iff (t := .arr n Ty.f64) _ v p).1 h).2
    exact ⟨this, this⟩

/-- C230: isotropic covariances -/
theorem C230_isotropic_covariance :
    Advertises Covariance.isotropicImpl Covariance.isotropic ∧ GivesBack Covariance.isotropicImpl Covariance.isotropic := by
  refine ⟨⟨_, rfl, fun v => ?_⟩, fun v p h => ?_⟩
  · refine (tests_all (t := Ty.f64) _ v).trans ?_
    simp only [List.mem_singleton, forall_eq, Covariance.isotropic, mapError_ok_iff]
    exact ⟨fun h => ⟨v, (check_ok_iff (t := Ty.f64) _ v v).2 ⟨h, rfl⟩⟩, fun ⟨p, h⟩ => ((check_ok_iff (t := Ty.f64) _ v p).1 h).1⟩
  · rw [Covariance.isotropic, mapError_ok_iff] at h
    have := ((check_ok_iff (t := Ty.f64) _ v p).1 h).2
    exact ⟨this, this⟩

theorem concentrations_new_ok {n : ℕ} (v w : Fin n → F64) : Concentrations.new v = .ok w ↔
    (Cst.allArr (t := Ty.f64) (n := n) .positive).sat v = true ∧ (Cst.not (Cst.emptyArr (t := Ty.f64) (n := n))).sat v = true ∧ w = v := by
  rw [Concentrations.new, mapError_ok_iff]
  rcases hc : (Cst.allArr (t := Ty.f64) (n := n) .positive).check v with e | u
  · have : (Cst.allArr (t := Ty.f64) (n := n) .positive).sat v ≠ true := fun h => by
      have := (check_ok_iff (t := .arr n Ty.f64) _ v v).2 ⟨h, rfl⟩
      rw [hc] at this; cases this
    simp [this]
  · obtain ⟨h1, rfl⟩ := (check_ok_iff (t := .arr n Ty.f64) _ v u).1 hc
    simp only [h1, true_and]
    exact check_ok_iff (t := .arr n Ty.f64) _ u w

/-- C230: concentrations list what they check (both checks use the inverted `Empty`, see C14 and C16) -/
theorem C230_concentrations (n : ℕ) :
    Advertises (Concentrations.impl n) Concentrations.new ∧ GivesBack (Concentrations.impl n) Concentrations.new := by
  refine ⟨⟨_, rfl, fun v => ?_⟩, fun v p h => ?_⟩
  · refine (tests_all (t := .arr n Ty.f64) _ v).trans ?_
    simp only [concentrations_new_ok, Concentrations.constraints, List.mem_cons, List.not_mem_nil, or_false, forall_eq_or_imp, forall_eq]
    exact ⟨fun h => ⟨v, h.2, h.1, rfl⟩, fun ⟨_, h1, h2, _⟩ => ⟨h2, h1⟩⟩
  · have := ((concentrations_new_ok v p).1 h).2.2
    exact ⟨this, this⟩

/-- C230 (partial): for the types whose `constraints()` is wrong or missing, `value()` and `into_value()` still give back what was passed.
Missing: `constraints()` of dense and bivariate covariances and of simplex vectors (next theorem). -/
theorem C230_values_given_back_partial [FP] (n : ℕ) :
    GivesBack (Covariance.matrixImpl n) Covariance.matrix ∧ GivesBack SimplexVector.impl SimplexVector.new ∧
    GivesBack Covariance.bivariateImpl (fun v => Covariance.bivariate v.1 v.2) := by
  refine ⟨fun v p h => ?_, fun v p h => ?_, fun v p h => ?_⟩
  · rw [Covariance.matrix, mapError_ok_iff] at h
    have := ((check_ok_iff (t := .arr n (.arr n Ty.f64)) _ v p).1 h).2
    exact ⟨this, this⟩
  · unfold SimplexVector.new at h
    split at h
    · cases h
    · split at h
      · cases h; exact ⟨rfl, rfl⟩
      · cases h
  · obtain ⟨a, r⟩ := v
    obtain ⟨b, s⟩ := p
    have := (C19_bivariate_accepts_partial a b r s).1 h
    rw [this.2.1, this.2.2]; exact ⟨rfl, rfl⟩

/-- C230 (violated): a dense covariance advertises constraints that refuse exactly the accepted matrices with a zero entry (in every dimension
n ≥ 1 there is one); the constraints of simplex vectors and bivariate covariances cannot be listed at all, whatever the constructor. -/
theorem C230_constraints_violated (n : ℕ) :
    (∃ cs, (Covariance.matrixImpl n).constraints = .ok cs ∧
      ∀ S, Covariance.matrix S = .ok S → ((∀ c ∈ cs, c S = true) ↔ ∀ i j, ¬ FEq (S i j) (fin 0))) ∧
    (¬ Advertises (Covariance.matrixImpl (n + 1)) Covariance.matrix) ∧
    (∀ new : List F64 → Except Err SimplexVector, ¬ Advertises SimplexVector.impl new) ∧
    (∀ new : (Fin 2 → F64) × F64 → Except Err ((Fin 2 → F64) × F64), ¬ Advertises Covariance.bivariateImpl new) := by
  have key : ∀ (n : ℕ) (S : Fin n → Fin n → F64), Covariance.matrix S = .ok S →
      ((∀ c ∈ tests (Covariance.matrixConstraints n), c S = true) ↔ ∀ i j, ¬ FEq (S i j) (fin 0)) := by
    intro n S h
    have hn := ((C19_matrix_accepts_nonnegative_partial n S S).1 h).1
    refine (tests_all (t := .arr n (.arr n Ty.f64)) _ S).trans ?_
    simp only [Covariance.matrixConstraints, List.mem_cons, List.not_mem_nil, or_false, forall_eq_or_imp, forall_eq, Cst.sat, true_and,
      List.all_eq_true, List.mem_finRange, forall_const, decide_eq_true_eq]
    refine forall₂_congr fun i j => ?_
    have h1 := hn i j
    show F64.lt (fin 0) (S i j) ↔ _
    have h2 : FLt (fin 0) (S i j) ↔ ¬ FEq (S i j) (fin 0) := by
      obtain ⟨x, y, hx, hy, hxy⟩ := h1
      constructor
      · rintro ⟨x', y', hx', hy', hlt⟩ ⟨z, hz1, hz2⟩
        rw [hx'] at hz2; rw [hy'] at hz1
        simp only [Option.some.injEq] at hz1 hz2
        subst hz1; subst hz2; exact lt_irrefl _ hlt
      · intro hne
        refine ⟨x, y, hx, hy, lt_of_le_of_ne hxy fun e => hne ⟨y, hy, ?_⟩⟩
        rw [← e]; exact hx
    rw [← h2]
    exact Iff.rfl
  refine ⟨⟨_, rfl, key n⟩, ?_, ?_, ?_⟩
  · rintro ⟨cs, hcs, h⟩
    have e : cs = tests (Covariance.matrixConstraints (n + 1)) := by
      simpa [Covariance.matrixImpl] using hcs.symm
    subst e
    have hz : Covariance.matrix (fun _ _ => fin 0 : Fin (n + 1) → Fin (n + 1) → F64) = .ok (fun _ _ => fin 0) :=
      (C19_matrix_accepts_nonnegative_partial _ _ _).2 ⟨fun _ _ => fin_le_fin.2 le_rfl, rfl⟩
    have := (key (n + 1) _ hz).1 ((h _).2 ⟨_, hz⟩) 0 0
    exact this ⟨_, rfl, rfl⟩
  · rintro new ⟨cs, hcs, -⟩; cases hcs
  · rintro new ⟨cs, hcs, -⟩; cases hcs

/-- `Scale::new(3)` is accepted and passes the listed constraint, `Scale::new(-1)` does not -/
example : ∃ cs, (ParamKind.scale (s := .f64)).impl.constraints = .ok cs ∧ (∀ c ∈ cs, c (fin 3) = true) ∧ ¬ ∀ c ∈ cs, c (fin (-1)) = true := by
  refine ⟨_, rfl, ?_, ?_⟩
  · refine (tests_all (t := Ty.f64) _ (fin 3)).2 ?_; simp [ParamKind.cst, Cst.sat, Sc.lt, Sc.zero, F64.lt]
  · refine fun h => absurd ((tests_all (t := Ty.f64) _ (fin (-1))).1 h) ?_; simp [ParamKind.cst, Cst.sat, Sc.lt, Sc.zero, F64.lt]
end Rstat
