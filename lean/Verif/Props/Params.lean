import Verif.Lemmas.Constraints
import Verif.Float.ExactInst
import Mathlib.LinearAlgebra.Matrix.PosDef
import Mathlib.Tactic.FinCases

/-! Properties C12–C17, C19: constraints and parameter constructors. -/
namespace Rstat
open F64

namespace Spec
/-- order of two f64 values read as extended reals; false as soon as one is NaN -/
def FLt (a b : F64) : Prop := ∃ x y : EReal, a.ext = some x ∧ b.ext = some y ∧ x < y
def FLe (a b : F64) : Prop := ∃ x y : EReal, a.ext = some x ∧ b.ext = some y ∧ x ≤ y
def FEq (a b : F64) : Prop := ∃ x : EReal, a.ext = some x ∧ b.ext = some x
/-- strictly positive: a positive real or +inf -/
def FPos (a : F64) : Prop := a = pinf ∨ ∃ r : ℝ, 0 < r ∧ a = fin r
end Spec
open Spec

/-- acceptance by `check` : the call returns `Ok` with the very value that was passed -/
def Accepts {t : Ty} (c : Cst t) (v : t.Val) : Prop := c.check v = .ok v
/-- refusal by `check`: an error carrying the value that was passed -/
def Rejects {t : Ty} (c : Cst t) (v : t.Val) : Prop := ∃ e, c.check v = .error e ∧ e.value = v

/-! ### C12 -/

/-- C12: `check` is total, returns the value untouched, and agrees with `is_satisfied_by`; for every constraint -/
theorem C12_check_returns_value {t : Ty} (c : Cst t) (v : t.Val) :
    (c.sat v = true ∧ Accepts c v ∧ ¬ Rejects c v) ∨ (c.sat v = false ∧ Rejects c v ∧ ¬ Accepts c v) := by
  unfold Accepts Rejects
  cases h : c.sat v with
  | true => left; rw [(c.check_spec v).1 h]; simp
  | false =>
    right; obtain ⟨c', hc, _⟩ := (c.check_spec v).2 h
    rw [hc]; simp [UCE.new]

theorem accepts_iff {t : Ty} (c : Cst t) (v : t.Val) : Accepts c v ↔ c.sat v = true := by
  unfold Accepts; rw [Cst.check_ok_iff]; simp

/-- C12: an error produced by `check` names a constraint that the value indeed violates, and has no target -/
theorem C12_error_names_a_failing_constraint {t : Ty} (c : Cst t) (v : t.Val) (e : UCE t)
    (h : c.check v = .error e) : e.constraint.sat v = false ∧ e.value = v ∧ e.target = none := by
  cases hs : c.sat v with
  | true => rw [(c.check_spec v).1 hs] at h; cases h
  | false =>
    obtain ⟨c', hc, h'⟩ := (c.check_spec v).2 hs
    rw [hc] at h; cases h; exact ⟨h', rfl, rfl⟩

/-- C12, f64: each atomic constraint accepts exactly the values standing in its relation, never NaN -/
theorem C12_f64_atoms (b lb ub v : F64) :
    (Accepts (.equal (s := .f64) b) v ↔ FEq v b) ∧
    (Accepts (.lessThan (s := .f64) b) v ↔ FLt v b) ∧
    (Accepts (.lessThanOrEqual (s := .f64) b) v ↔ FLe v b) ∧
    (Accepts (.greaterThan (s := .f64) b) v ↔ FLt b v) ∧
    (Accepts (.greaterThanOrEqual (s := .f64) b) v ↔ FLe b v) ∧
    (Accepts (.interval (s := .f64) lb ub) v ↔ FLe lb v ∧ FLe v ub) ∧
    (Accepts (.negative (s := .f64)) v ↔ (v = ninf ∨ ∃ r : ℝ, r < 0 ∧ v = fin r)) ∧
    (Accepts (.positive (s := .f64)) v ↔ FPos v) ∧
    (Accepts (.nonPositive (s := .f64)) v ↔ (v = ninf ∨ v = negZero ∨ ∃ r : ℝ, r ≤ 0 ∧ v = fin r)) ∧
    (Accepts (.nonNegative (s := .f64)) v ↔ (v = pinf ∨ v = negZero ∨ ∃ r : ℝ, 0 ≤ r ∧ v = fin r)) := by
  have e0 : (0 : EReal) = ((0 : ℝ) : EReal) := rfl
  refine ⟨?_, ?_, ?_, ?_, ?_, ?_, ?_, ?_, ?_, ?_⟩ <;>
    refine (accepts_iff _ _).trans ?_ <;>
    simp only [Cst.sat, decide_eq_true_eq, Bool.and_eq_true] <;>
    first
    | exact Iff.rfl
    | (simp only [Sc.lt, Sc.le, Sc.zero]; cases v <;> simp [F64.lt, F64.le, FPos])

/-- C12: no comparison constraint accepts NaN, whatever its bounds -/
theorem C12_f64_never_nan (b lb ub : F64) :
    ¬ Accepts (.equal (s := .f64) b) nan ∧ ¬ Accepts (.lessThan (s := .f64) b) nan ∧
    ¬ Accepts (.lessThanOrEqual (s := .f64) b) nan ∧ ¬ Accepts (.greaterThan (s := .f64) b) nan ∧
    ¬ Accepts (.greaterThanOrEqual (s := .f64) b) nan ∧ ¬ Accepts (.interval (s := .f64) lb ub) nan ∧
    ¬ Accepts (.positive (s := .f64)) nan ∧ ¬ Accepts (.nonNegative (s := .f64)) nan ∧
    ¬ Accepts (.negative (s := .f64)) nan ∧ ¬ Accepts (.nonPositive (s := .f64)) nan := by
  obtain ⟨h1, h2, h3, h4, h5, h6, h7, h8, h9, h10⟩ := C12_f64_atoms b lb ub nan
  rw [h1, h2, h3, h4, h5, h6, h7, h8, h9, h10]
  simp [FEq, FLt, FLe, FPos]

/-- C12, i64 -/
theorem C12_i64_atoms (b lb ub v : ℤ) :
    (Accepts (.equal (s := .i64) b) v ↔ v = b) ∧
    (Accepts (.lessThan (s := .i64) b) v ↔ v < b) ∧
    (Accepts (.lessThanOrEqual (s := .i64) b) v ↔ v ≤ b) ∧
    (Accepts (.greaterThan (s := .i64) b) v ↔ b < v) ∧
    (Accepts (.greaterThanOrEqual (s := .i64) b) v ↔ b ≤ v) ∧
    (Accepts (.interval (s := .i64) lb ub) v ↔ lb ≤ v ∧ v ≤ ub) ∧
    (Accepts (.negative (s := .i64)) v ↔ v < 0) ∧
    (Accepts (.positive (s := .i64)) v ↔ 0 < v) ∧
    (Accepts (.nonPositive (s := .i64)) v ↔ v ≤ 0) ∧
    (Accepts (.nonNegative (s := .i64)) v ↔ 0 ≤ v) ∧
    (Accepts .naturalI v ↔ 0 < v) := by
  refine ⟨?_, ?_, ?_, ?_, ?_, ?_, ?_, ?_, ?_, ?_, ?_⟩ <;>
    refine (accepts_iff _ _).trans ?_ <;>
    simp only [Cst.sat, decide_eq_true_eq, Bool.and_eq_true] <;>
    exact Iff.rfl

/-- C12, usize -/
theorem C12_usize_atoms (b lb ub v : ℕ) :
    (Accepts (.equal (s := .usize) b) v ↔ v = b) ∧
    (Accepts (.lessThan (s := .usize) b) v ↔ v < b) ∧
    (Accepts (.lessThanOrEqual (s := .usize) b) v ↔ v ≤ b) ∧
    (Accepts (.greaterThan (s := .usize) b) v ↔ b < v) ∧
    (Accepts (.greaterThanOrEqual (s := .usize) b) v ↔ b ≤ v) ∧
    (Accepts (.interval (s := .usize) lb ub) v ↔ lb ≤ v ∧ v ≤ ub) ∧
    (Accepts (.positive (s := .usize)) v ↔ 0 < v) ∧
    (Accepts (.nonNegative (s := .usize)) v ↔ True) ∧
    (Accepts .naturalU v ↔ 0 < v) := by
  refine ⟨?_, ?_, ?_, ?_, ?_, ?_, ?_, ?_, ?_⟩ <;>
    refine (accepts_iff _ _).trans ?_ <;>
    simp only [Cst.sat, decide_eq_true_eq, Bool.and_eq_true] <;>
    first | exact Iff.rfl | exact iff_true_intro (Nat.zero_le _)

example : Accepts (.positive (s := .f64)) (fin 2) := (C12_f64_atoms 0 0 0 (fin 2)).2.2.2.2.2.2.2.1.2
  (Or.inr ⟨2, by norm_num, rfl⟩)
example : Rejects (.positive (s := .f64)) (negZero) := by
  rcases C12_check_returns_value (.positive (s := .f64)) negZero with h | h
  · exact absurd ((C12_f64_atoms 0 0 0 negZero).2.2.2.2.2.2.2.1.1 h.2.1) (by simp [FPos])
  · exact h.2.1

/-! ### C13 -/

/-- C13: the combinators are ∧, ∨, ¬ and ∀ on the accepted sets, by `check` -/
theorem C13_check_combinators {t : Ty} (c c1 c2 : Cst t) (v : t.Val) :
    (Accepts (.and c1 c2) v ↔ Accepts c1 v ∧ Accepts c2 v) ∧
    (Accepts (.or c1 c2) v ↔ Accepts c1 v ∨ Accepts c2 v) ∧
    (Accepts (.not c) v ↔ ¬ Accepts c v) ∧
    (Accepts (.box c) v ↔ Accepts c v) := by
  simp only [accepts_iff, Cst.sat]; simp

/-- C13: the same for `is_satisfied_by` -/
theorem C13_sat_combinators {t : Ty} (c c1 c2 : Cst t) (v : t.Val) :
    ((Cst.and c1 c2).sat v = true ↔ c1.sat v = true ∧ c2.sat v = true) ∧
    ((Cst.or c1 c2).sat v = true ↔ c1.sat v = true ∨ c2.sat v = true) ∧
    ((Cst.not c).sat v = true ↔ ¬ c.sat v = true) ∧
    ((Cst.box c).sat v = true ↔ c.sat v = true) := by
  simp only [Cst.sat]; simp

/-- C13: `All` is the closure over every element, at every length, for scalars, `Vec` and arrays -/
theorem C13_all {t : Ty} (c : Cst t) :
    (∀ l : List t.Val, Accepts (.allVec c) l ↔ ∀ x ∈ l, Accepts c x) ∧
    (∀ (n : ℕ) (a : Fin n → t.Val), Accepts (.allArr (n := n) c) a ↔ ∀ i, Accepts c (a i)) := by
  refine ⟨fun l => (accepts_iff _ _).trans ?_, fun n a => (accepts_iff _ _).trans ?_⟩ <;>
    simp only [accepts_iff, Cst.sat]
  · exact List.all_eq_true
  · exact List.all_eq_true.trans (by simp)

/-- C13: `All` over a scalar constraint accepts what that constraint accepts -/
theorem C13_all_scalar {s : Sc} (c : Cst (.sc s)) (v : (Ty.sc s).Val) :
    Accepts (.allSc c) v ↔ Accepts c v := by
  simp only [accepts_iff, Cst.sat]

/-- meaning of a constraint tree whose leaves are interpreted by `leaf` -/
def Spec.meaning (leaf : {t : Ty} → Cst t → t.Val → Prop) : {t : Ty} → Cst t → t.Val → Prop
  | _, .not c, v => ¬ meaning leaf c v
  | _, .or a b, v => meaning leaf a v ∨ meaning leaf b v
  | _, .and a b, v => meaning leaf a v ∧ meaning leaf b v
  | _, .box c, v => meaning leaf c v
  | _, .allSc c, v => meaning leaf c v
  | _, @Cst.allVec t c, v => ∀ x ∈ (show List t.Val from v), meaning leaf c x
  | _, @Cst.allArr _ n c, v => ∀ i : Fin n, meaning leaf c (v i)
  | _, c, v => leaf c v

/-- C13: at any nesting depth both `check` and `is_satisfied_by` compute the Boolean meaning of the tree -/
theorem C13_any_depth {t : Ty} (c : Cst t) (v : t.Val) :
    (Accepts c v ↔ Spec.meaning Accepts c v) ∧ (c.sat v = true ↔ Spec.meaning Accepts c v) := by
  rw [accepts_iff, and_self_iff, ← accepts_iff]
  induction c with
  | or a b ha hb => rw [(C13_check_combinators a a b v).2.1, ha, hb]; simp [Spec.meaning]
  | and a b ha hb => rw [(C13_check_combinators a a b v).1, ha, hb]; simp [Spec.meaning]
  | not a ha => rw [(C13_check_combinators a a a v).2.2.1, ha]; simp [Spec.meaning]
  | box a ha => rw [(C13_check_combinators a a a v).2.2.2, ha]; simp [Spec.meaning]
  | allSc a ha => rw [C13_all_scalar a v, ha]; simp [Spec.meaning]
  | @allVec t a ha => 
    rw [show Accepts (.allVec a) v ↔ _ from (C13_all a).1 v]
    exact forall₂_congr fun x _ => ha x
  | @allArr t n a ha =>
    rw [show Accepts (.allArr a) v ↔ _ from (C13_all a).2 n v]
    exact forall_congr' fun i => ha (v i)
  | _ => simp [Spec.meaning]

example : Accepts (.allArr (n := 2) (.or (.positive (s := .i64)) (.equal (s := .i64) (-1)))) ![3, -1] := by
  rw [(C13_any_depth _ _).1]
  intro i
  fin_cases i
  · exact Or.inl ((C12_i64_atoms 0 0 0 3).2.2.2.2.2.2.2.1.2 (by norm_num))
  · exact Or.inr ((C12_i64_atoms (-1) 0 0 (-1)).1.2 rfl)

/-! ### C14 -/

/-- C14 at full strength (`Vec` and arrays) -/
def C14_full : Prop :=
  (∀ (t : Ty) (l : List t.Val), Accepts (.emptyVec (t := t)) l ↔ l = []) ∧
  (∀ (t : Ty) (n : ℕ) (a : Fin n → t.Val), Accepts (.emptyArr (t := t) (n := n)) a ↔ n = 0)

/-- what holds: `Vec` (the array half of C14 is missing) -/
theorem C14_empty_vec_partial (t : Ty) (l : List t.Val) : Accepts (.emptyVec (t := t)) l ↔ l = [] := by
  refine (accepts_iff _ _).trans ?_
  simp only [Cst.sat, decide_eq_true_eq]
  exact List.length_eq_zero_iff

/-- arrays: `Empty` accepts exactly the NON-empty arrays -/
theorem C14_empty_array_inverted_violated (t : Ty) (n : ℕ) (a : Fin n → t.Val) :
    Accepts (.emptyArr (t := t) (n := n)) a ↔ n ≠ 0 := by
  refine (accepts_iff _ _).trans ?_
  simp only [Cst.sat, decide_eq_true_eq]
  omega

/-- C14 (violation): the emptiness constraint in full is false: for arrays it is inverted and accepts exactly the non-empty ones -/
theorem C14_empty_violated : ¬ C14_full := by
  intro h
  have := (h.2 Ty.f64 0 (fun _ => fin 0)).2 rfl
  exact ((C14_empty_array_inverted_violated _ _ _).1 this) rfl

/-! ### C15 -/

theorem pos_iff_FPos (x : F64) : Sc.lt .f64 (Sc.zero .f64) x ↔ FPos x := by
  have h := (C12_f64_atoms 0 0 0 x).2.2.2.2.2.2.2.1
  rw [accepts_iff] at h
  simpa only [Cst.sat, decide_eq_true_eq] using h

/-- C15: Scale/Rate/Shape/DOF::new succeed exactly on strictly positive values and store the argument -/
theorem C15_positive_params (x y : F64) :
    (Scale.new x = .ok y ↔ FPos x ∧ y = x) ∧ (Rate.new x = .ok y ↔ FPos x ∧ y = x) ∧
    (Shape.new x = .ok y ↔ FPos x ∧ y = x) ∧ (DOF.new x = .ok y ↔ FPos x ∧ y = x) := by
  have e : ∀ x : F64, 0 < x ↔ FPos x := pos_iff_FPos
  rw [Scale.new_ok, Rate.new_ok, Shape.new_ok, DOF.new_ok, e x]
  simp

/-- C15: never NaN, -0.0, 0 or a negative value -/
theorem C15_positive_params_refuse (x : F64) (h : x = nan ∨ x = negZero ∨ x = ninf ∨ ∃ r : ℝ, r ≤ 0 ∧ x = fin r) :
    ∀ y, Scale.new x ≠ .ok y ∧ Rate.new x ≠ .ok y ∧ Shape.new x ≠ .ok y ∧ DOF.new x ≠ .ok y := by
  intro y
  have hx : ¬ FPos x := by
    rcases h with rfl | rfl | rfl | ⟨r, hr, rfl⟩ <;> simp [FPos]; exact hr
  have := C15_positive_params x y
  simp [this, hx]

/-- C15: integer-valued parameters -/
theorem C15_integer_params (n m : ℕ) (a b : ℤ) :
    (Shape.newU n = .ok m ↔ 0 < n ∧ m = n) ∧ (DOF.newU n = .ok m ↔ 0 < n ∧ m = n) ∧
    (Count.newU n = .ok m ↔ m = n) ∧ (Scale.newI a = .ok b ↔ 0 < a ∧ b = a) :=
  ⟨Shape.newU_ok n m, DOF.newU_ok n m, Count.newU_ok n m, Scale.newI_ok a b⟩

/-- C15: at every scalar type, `Count::new` accepts exactly the values ≥ 0 -/
theorem C15_count {s : Sc} (x y : (Ty.sc s).Val) :
    (ParamKind.count (s := s)).new x = .ok y ↔ s.le s.zero x ∧ y = x := by
  refine (Cst.check_ok_iff (.allSc .nonNegative) x y).trans ?_
  simp only [Cst.sat, decide_eq_true_eq]

/-- C15: Corr::new succeeds exactly on [-1,1] and stores the argument -/
theorem C15_corr (x y : F64) :
    Corr.new x = .ok y ↔ (x = negZero ∨ ∃ r : ℝ, -1 ≤ r ∧ r ≤ 1 ∧ x = fin r) ∧ y = x := by
  rw [Corr.new_ok]
  refine and_congr_left fun _ => ⟨fun ⟨h1, h2⟩ => ?_, ?_⟩
  · obtain ⟨hr, h3, h4⟩ := F64.is_of_le_le (F64.Is.fin (-1)) F64.Is.one h1 h2
    generalize x.toReal = r at hr h3 h4
    rcases hr with rfl | ⟨rfl, rfl⟩
    · exact Or.inr ⟨r, h3, h4, rfl⟩
    · exact Or.inl rfl
  · rintro (rfl | ⟨r, h1, h2, rfl⟩)
    · exact ⟨(Is.fin (-1)).le_iff Is.negZero |>.2 (by norm_num), Is.negZero.le_iff Is.one |>.2 (by norm_num)⟩
    · exact ⟨fin_le_fin.2 h1, (Is.fin r).le_iff Is.one |>.2 h2⟩

/-- C15: Loc::new always succeeds, NaN included -/
theorem C15_loc (x : F64) : Loc.new x = .ok x := rfl

example : Scale.new (fin 3) = .ok (fin 3) := (C15_positive_params _ _).1.2 ⟨Or.inr ⟨3, by norm_num, rfl⟩, rfl⟩

/-! ### C16 -/

/-- C16 at full strength -/
def C16_full : Prop := ∀ (n : ℕ) (v w : Fin n → F64),
  Concentrations.new v = .ok w ↔ (n ≠ 0 ∧ ∀ i, FPos (v i)) ∧ w = v

/-- no non-empty vector at all is accepted -/
theorem C16_nonempty_always_rejected_violated (n : ℕ) (v w : Fin (n + 1) → F64) :
    Concentrations.new v ≠ .ok w := by
  intro h
  unfold Concentrations.new at h
  rw [mapError_ok_iff] at h
  split at h
  · cases h
  · rw [Cst.check_ok_iff] at h
    simp [Cst.sat] at h

/-- C16 (violation): `Concentrations::new` does not accept the vectors of positive numbers; it refuses every non-empty vector -/
theorem C16_concentrations_violated : ¬ C16_full := by
  intro h
  refine C16_nonempty_always_rejected_violated 0 (fun _ => fin 1) (fun _ => fin 1) ((h 1 _ _).2 ⟨⟨by decide, ?_⟩, rfl⟩)
  exact fun _ => Or.inr ⟨1, one_pos, rfl⟩

/-- the part that holds: nothing with a non-positive or NaN entry is accepted, what is accepted is stored unchanged.
Missing: acceptance of valid vectors (impossible, see above). -/
theorem C16_concentrations_sound_partial (n : ℕ) (v w : Fin n → F64) (h : Concentrations.new v = .ok w) :
    (∀ i, FPos (v i)) ∧ w = v := by
  cases n with
  | zero =>
    exact ⟨fun i => i.elim0, by funext i; exact i.elim0⟩
  | succ n => exact absurd h (C16_nonempty_always_rejected_violated n v w)

/-! ### C17 -/

/-- C17: success means every field's own constructor accepted its argument; the stored values are the arguments, in
order; and conversely -/
theorem C17_params_new_ok (fs : List FieldArg) (vs : List (Σ t : Ty, t.Val)) :
    paramsNew fs = .ok vs ↔
      (∀ f ∈ fs, f.kind.new f.arg = .ok f.arg) ∧ vs = fs.map (fun f => ⟨f.t, f.arg⟩) := by
  have key : ∀ (f : FieldArg) (v : f.t.Val), f.kind.new f.arg = .ok v → v = f.arg := by
    intro f v h
    unfold ParamKind.new at h
    cases hc : f.kind.cst with
    | none => rw [hc] at h; simpa [eq_comm] using h
    | some c => rw [hc] at h; exact ((Cst.check_ok_iff c _ _).1 h).2
  induction fs generalizing vs with
  | nil => simp [paramsNew, eq_comm]
  | cons f fs ih =>
    simp only [paramsNew]
    cases h : f.kind.new f.arg with
    | error e => simp [h]
    | ok v =>
      have hv := key f v h
      subst hv
      cases h2 : paramsNew fs with
      | error e =>
        simp only [List.mem_cons, forall_eq_or_imp]
        constructor
        · intro hh; cases hh
        · rintro ⟨⟨_, h3⟩, _⟩
          have := (ih (fs.map (fun f => ⟨f.t, f.arg⟩))).2 ⟨h3, rfl⟩
          rw [h2] at this; cases this
      | ok ws =>
        have h3 := (ih ws).1 h2
        simp only [List.mem_cons, forall_eq_or_imp, List.map_cons, h, true_and]
        constructor
        · intro hh; cases hh; exact ⟨h3.1, by rw [← h3.2]⟩
        · rintro ⟨_, rfl⟩; rw [← h3.2]

/-- C17: on failure the error is that of the first rejected field -/
theorem C17_params_new_first_error (pre : List FieldArg) (f : FieldArg) (post : List FieldArg) (e : UCE f.t)
    (hpre : ∀ g ∈ pre, g.kind.new g.arg = .ok g.arg) (hf : f.kind.new f.arg = .error e) :
    paramsNew (pre ++ f :: post) = .error (.uce f.t e) := by
  induction pre with
  | nil => simp [paramsNew, hf]
  | cons g pre ih =>
    simp only [List.cons_append, paramsNew]
    rw [hpre g (List.mem_cons_self)]
    simp only
    rw [ih (fun x hx => hpre x (List.mem_cons_of_mem _ hx))]

/-- C17: every run is one of the two cases -/
theorem C17_params_new_total (fs : List FieldArg) :
    paramsNew fs = .ok (fs.map (fun f => ⟨f.t, f.arg⟩)) ∨
    ∃ pre f post e, fs = pre ++ f :: post ∧ (∀ g ∈ pre, g.kind.new g.arg = .ok g.arg) ∧
      f.kind.new f.arg = .error e ∧ paramsNew fs = .error (.uce f.t e) := by
  by_cases hall : ∀ f ∈ fs, f.kind.new f.arg = .ok f.arg
  · exact Or.inl ((C17_params_new_ok fs _).2 ⟨hall, rfl⟩)
  · right
    induction fs with
    | nil => simp at hall
    | cons f fs ih =>
      by_cases hf : f.kind.new f.arg = .ok f.arg
      · have : ¬ ∀ g ∈ fs, g.kind.new g.arg = .ok g.arg := by
          intro h; apply hall; intro g hg
          rcases List.mem_cons.1 hg with rfl | hg
          · exact hf
          · exact h g hg
        obtain ⟨pre, g, post, e, rfl, h1, h2, h3⟩ := ih this
        refine ⟨f :: pre, g, post, e, rfl, ?_, h2, ?_⟩
        · intro x hx
          rcases List.mem_cons.1 hx with rfl | hx
          · exact hf
          · exact h1 x hx
        · simp only [List.cons_append, paramsNew, hf]; rw [h3]
      · cases h : f.kind.new f.arg with
        | ok v =>
          exfalso; apply hf; rw [h]
          unfold ParamKind.new at h
          cases hc : f.kind.cst with
          | none => rw [hc] at h; simpa [eq_comm] using h
          | some c => rw [hc] at h; rw [((Cst.check_ok_iff c _ _).1 h).2]
        | error e => exact ⟨[], f, fs, e, rfl, by simp, h, by simp [paramsNew, h]⟩

/-- two fields, second one rejected: the error is the second field's -/
example : ∃ e, paramsNew [⟨Ty.f64, .loc, fin 0⟩, ⟨Ty.f64, .scale, fin 0⟩] = .error (.uce Ty.f64 e) := by
  have h0 : ∃ e, (ParamKind.scale (s := .f64)).new (fin 0) = .error e := by
    rcases C12_check_returns_value (.allSc (.positive (s := .f64))) (fin 0) with h | h
    · exact absurd h.1 (by simp [Cst.sat, Sc.lt, Sc.zero, F64.lt])
    · obtain ⟨e, he, _⟩ := h.2.1; exact ⟨e, he⟩
  obtain ⟨e, he⟩ := h0
  exact ⟨e, C17_params_new_first_error [⟨Ty.f64, .loc, fin 0⟩] ⟨Ty.f64, .scale, fin 0⟩ [] e
    (by intro g hg; simp at hg; subst hg; rfl) he⟩

/-! ### C19 -/

/-- a matrix of f64 with finite entries read as a real matrix -/
noncomputable def Spec.realMatrix {n : ℕ} (S : Fin n → Fin n → F64) : Matrix (Fin n) (Fin n) ℝ :=
  Matrix.of fun i j => (S i j).toReal

/-- C19 at full strength for dense matrices -/
def C19_full : Prop := ∀ (n : ℕ) (S : Fin n → Fin n → F64), (∀ i j, (S i j).isFinite) →
  (Covariance.matrix S = .ok S ↔ (Spec.realMatrix S).PosSemidef)

/-- what `matrix` really tests: every entry is ≥ 0 -/
theorem C19_matrix_accepts_nonnegative_partial (n : ℕ) (S T : Fin n → Fin n → F64) :
    Covariance.matrix S = .ok T ↔ (∀ i j, FLe (fin 0) (S i j)) ∧ T = S := by
  refine (newE_ok (Cst.and (Cst.square (t := Ty.f64) (n := n)) (.allArr (.allArr .nonNegative))) S T).trans ?_
  refine and_congr_left fun _ => ?_
  simp only [Cst.sat, Bool.true_and]
  refine List.all_eq_true.trans ?_
  simp only [List.mem_finRange, forall_true_left]
  refine forall_congr' fun i => List.all_eq_true.trans ?_
  simp only [List.mem_finRange, forall_true_left, decide_eq_true_eq]
  exact forall_congr' fun j => Iff.rfl

/-- a valid covariance with a negative off-diagonal entry is refused: [[1,-1/2],[-1/2,1]] -/
theorem C19_matrix_refuses_valid_violated : ∃ S : Fin 2 → Fin 2 → F64,
    (∀ i j, (S i j).isFinite) ∧ (Spec.realMatrix S).PosDef ∧ ∀ T, Covariance.matrix S ≠ .ok T := by
  refine ⟨![![fin 1, fin (-1/2)], ![fin (-1/2), fin 1]], ?_, ?_, ?_⟩
  · intro i j; fin_cases i <;> fin_cases j <;> trivial
  · rw [Matrix.posDef_iff_dotProduct_mulVec]
    refine ⟨?_, ?_⟩
    · ext i j; fin_cases i <;> fin_cases j <;> simp [Spec.realMatrix]
    · intro x hx
      have : x 0 ≠ 0 ∨ x 1 ≠ 0 := by
        by_contra h; push Not at h; apply hx; ext i; fin_cases i; exacts [h.1, h.2]
      simp [Matrix.mulVec, dotProduct, Fin.sum_univ_two, Spec.realMatrix]
      rcases this with h | h
      · have := mul_self_pos.2 h; nlinarith [sq_nonneg (x 0 - 2 * x 1), sq_nonneg (x 1 - x 0 / 2)]
      · have := mul_self_pos.2 h; nlinarith [sq_nonneg (x 1 - 2 * x 0), sq_nonneg (x 0 - x 1 / 2)]
  · intro T h
    have := ((C19_matrix_accepts_nonnegative_partial 2 _ T).1 h).1 0 1
    simp [FLe] at this
    have h2 : (0:ℝ) ≤ (-1/2 : ℝ) := by exact_mod_cast this
    norm_num at h2

/-- an asymmetric, indefinite matrix is accepted: [[1,2],[1/2,1]] -/
theorem C19_matrix_accepts_invalid_violated : ∃ S : Fin 2 → Fin 2 → F64,
    (∀ i j, (S i j).isFinite) ∧ ¬ (Spec.realMatrix S).IsSymm ∧ (Spec.realMatrix S).det ≤ 0 ∧
    ¬ (Spec.realMatrix S).PosSemidef ∧ Covariance.matrix S = .ok S := by
  have ns : ¬ (Spec.realMatrix ![![fin 1, fin 2], ![fin (1/2), fin 1]]).IsSymm := by
    intro h
    have := congrFun (congrFun h 0) 1
    simp [Spec.realMatrix] at this; norm_num at this
  refine ⟨![![fin 1, fin 2], ![fin (1/2), fin 1]], ?_, ns, ?_, ?_, ?_⟩
  · intro i j; fin_cases i <;> fin_cases j <;> trivial
  · rw [Matrix.det_fin_two]; simp [Spec.realMatrix]
  · intro h
    apply ns
    have := h.isHermitian
    ext i j
    have h2 := congrFun (congrFun this i) j
    simpa using h2
  · rw [C19_matrix_accepts_nonnegative_partial]
    refine ⟨?_, rfl⟩
    intro i j
    have : ∀ r : ℝ, 0 ≤ r → FLe (fin 0) (fin r) := fun r h => fin_le_fin.2 h
    fin_cases i <;> fin_cases j <;> exact this _ (by norm_num)

/-- C19 (violation): `Covariance::matrix` does not accept exactly the positive semidefinite matrices: an indefinite one is accepted -/
theorem C19_covariance_violated : ¬ C19_full := by
  intro h
  obtain ⟨S, h1, _, _, h3, h4⟩ := C19_matrix_accepts_invalid_violated
  exact h3 ((h 2 S h1).1 h4)

/-- diagonal/paired: accepts exactly strictly positive variances and stores them -/
theorem C19_diagonal (n : ℕ) (v w : Fin n → F64) :
    Covariance.diagonal v = .ok w ↔ (∀ i, FPos (v i)) ∧ w = v := by
  refine (newE_ok (Cst.allArr (t := Ty.f64) (n := n) .positive) v w).trans ?_
  refine and_congr_left fun _ => ?_
  refine List.all_eq_true.trans ?_
  simp only [List.mem_finRange, forall_true_left, Cst.sat, decide_eq_true_eq]
  exact forall_congr' fun i => pos_iff_FPos (v i)

/-- C19: the isotropic constructor accepts exactly the strictly positive variances and stores the value -/
theorem C19_isotropic (x y : F64) : Covariance.isotropic x = .ok y ↔ FPos x ∧ y = x := by
  refine (newE_ok (Cst.positive (s := .f64)) x y).trans ?_
  refine and_congr_left fun _ => ?_
  simp only [Cst.sat, decide_eq_true_eq]
  exact pos_iff_FPos x

/-- bivariate: what is accepted. `rho = ±1` is accepted too, see the next theorem. -/
theorem C19_bivariate_accepts_partial (v w : Fin 2 → F64) (rho r : F64) :
    Covariance.bivariate v rho = .ok (w, r) ↔
      ((∀ i, FPos (v i)) ∧ FLe (fin (-1)) rho ∧ FLe rho (fin 1)) ∧ w = v ∧ r = rho := by
  have h1 := C19_diagonal 2 v
  have h2 := fun r => Cst.check_ok_iff (Cst.interval (s := .f64) (F64.fin (-1)) (F64.fin 1)) rho r
  unfold Covariance.diagonal at h1
  unfold Covariance.bivariate
  cases hv : (Cst.allArr (t := Ty.f64) (n := 2) .positive).check v with
  | error e =>
    have : ¬ ∀ i, FPos (v i) := by
      intro h; have := (h1 v).2 ⟨h, rfl⟩; rw [hv] at this; cases this
    simp [this]
  | ok u =>
    have hu := (h1 u).1 (by rw [hv]; rfl)
    obtain ⟨hp, rfl⟩ := hu
    cases hr : (Cst.interval (s := .f64) (F64.fin (-1)) (F64.fin 1)).check rho with
    | error e =>
      have : ¬ (FLe (fin (-1)) rho ∧ FLe rho (fin 1)) := by
        intro h; have := (h2 rho).2 ⟨by simp only [Cst.sat, Bool.and_eq_true, decide_eq_true_eq]; exact h, rfl⟩
        rw [hr] at this; cases this
      simp [this]
    | ok q =>
      obtain ⟨hs, rfl⟩ := (h2 q).1 hr
      have hs' : FLe (fin (-1)) q ∧ FLe q (fin 1) := by
        simp only [Cst.sat, Bool.and_eq_true, decide_eq_true_eq] at hs; exact hs
      simp only [Except.ok.injEq, Prod.mk.injEq]
      constructor
      · rintro ⟨rfl, rfl⟩; exact ⟨⟨hp, hs'⟩, rfl, rfl⟩
      · rintro ⟨_, rfl, rfl⟩; exact ⟨rfl, rfl⟩

/-- the degenerate correlations ±1 (singular covariance) are accepted -/
theorem C19_bivariate_accepts_singular_violated :
    Covariance.bivariate (fun _ => fin 1) (fin 1) = .ok (fun _ => fin 1, fin 1) ∧
    Covariance.bivariate (fun _ => fin 1) (fin (-1)) = .ok (fun _ => fin 1, fin (-1)) := by
  have hp : ∀ i : Fin 2, FPos ((fun _ => fin 1 : Fin 2 → F64) i) := fun _ => Or.inr ⟨1, one_pos, rfl⟩
  have hle : ∀ a b : ℝ, a ≤ b → FLe (fin a) (fin b) := fun a b h => fin_le_fin.2 h
  exact ⟨(C19_bivariate_accepts_partial _ _ _ _).2 ⟨⟨hp, hle _ _ (by norm_num), hle _ _ (by norm_num)⟩, rfl, rfl⟩,
    (C19_bivariate_accepts_partial _ _ _ _).2 ⟨⟨hp, hle _ _ (by norm_num), hle _ _ (by norm_num)⟩, rfl, rfl⟩⟩

/-- the constraints a matrix covariance advertises differ from the ones it enforces -/
theorem C19_advertised_constraints_differ_violated :
    ∃ S : Fin 1 → Fin 1 → F64, Covariance.matrix S = .ok S ∧
      ∃ c ∈ Covariance.matrixConstraints 1, c.sat S = false := by
  refine ⟨fun _ _ => fin 0, ?_, .allArr (.allArr .positive), by simp [Covariance.matrixConstraints], ?_⟩
  · rw [C19_matrix_accepts_nonnegative_partial]
    exact ⟨fun _ _ => fin_le_fin.2 le_rfl, rfl⟩
  · simp [Cst.sat, Sc.lt, Sc.zero, F64.lt]

end Rstat
