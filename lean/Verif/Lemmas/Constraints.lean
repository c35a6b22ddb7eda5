import Verif.Model.Params
import Verif.Float.Lemmas

namespace Rstat

namespace Cst

theorem loop_eq {α ε β : Type} (p : α → Bool) (bad : ε) (good : β) (l : List α) :
    loop p bad good l = if l.all p then .ok good else .error bad := by
  induction l with
  | nil => simp [loop]
  | cons a l ih =>
    by_cases h : p a = true <;> simp [loop, ih, h]

/-- `check` agrees with `is_satisfied_by` and keeps the value -/
theorem check_spec : ∀ {t : Ty} (c : Cst t) (v : t.Val),
    (c.sat v = true → c.check v = .ok v) ∧
    (c.sat v = false → ∃ c', c.check v = .error (UCE.new v c') ∧ c'.sat v = false) := by
  intro t c
  induction c with
  | or c1 c2 h1 h2 =>
    intro v
    simp only [sat, check]
    cases e1 : c1.sat v with
    | true => simp [(h1 v).1 e1]
    | false =>
      obtain ⟨c', hc', _⟩ := (h1 v).2 e1
      rw [hc']; simpa [UCE.new] using h2 v
  | and c1 c2 h1 h2 =>
    intro v
    simp only [sat, check]
    cases e1 : c1.sat v with
    | true => rw [(h1 v).1 e1]; simpa using h2 v
    | false =>
      obtain ⟨c', hc', hs⟩ := (h1 v).2 e1
      rw [hc']; simp
      exact ⟨c', rfl, hs⟩
  | allSc c h => intro v; simpa only [sat, check] using h v
  | @allVec t c h =>
    intro v
    refine ⟨fun hs => ?_, fun hs => ⟨_, ?_, hs⟩⟩
    · exact (loop_eq (α := t.Val) _ _ _ _).trans (if_pos hs)
    · exact (loop_eq (α := t.Val) _ _ _ _).trans (if_neg (fun h2 => absurd (hs.symm.trans h2) (by decide)))
  | @allArr t n c h =>
    intro v
    refine ⟨fun hs => ?_, fun hs => ⟨_, ?_, hs⟩⟩
    · exact (loop_eq (α := t.Val) _ _ _ _).trans (if_pos (List.all_map.trans hs))
    · exact (loop_eq (α := t.Val) _ _ _ _).trans
        (if_neg (fun h2 => absurd (hs.symm.trans (List.all_map.symm.trans h2)) (by decide)))
  | _ =>
    intro v
    refine ⟨fun hs => ?_, fun hs => ⟨_, ?_, hs⟩⟩ <;> simp only [check, defaultCheck, hs] <;> simp

theorem check_ok_iff {t : Ty} (c : Cst t) (v w : t.Val) : c.check v = .ok w ↔ c.sat v = true ∧ w = v := by
  cases h : c.sat v with
  | true => rw [(check_spec c v).1 h]; simp [eq_comm]
  | false => obtain ⟨c', hc', _⟩ := (check_spec c v).2 h; rw [hc']; simp

end Cst

theorem mapError_ok_iff {ε ε' α : Type} (f : ε → ε') (x : Except ε α) (a : α) :
    x.mapError f = .ok a ↔ x = .ok a := by
  cases x <;> simp [Except.mapError]

theorem newE_ok {t : Ty} (c : Cst t) (x y : t.Val) :
    (c.check x).mapError (Err.uce t) = .ok y ↔ c.sat x = true ∧ y = x := by
  rw [mapError_ok_iff, Cst.check_ok_iff]

theorem Loc.new_eq (x : F64) : Loc.new x = .ok x := rfl
theorem Scale.new_ok (x y : F64) : Scale.new x = .ok y ↔ 0 < x ∧ y = x := by
  exact (newE_ok (t := Ty.f64) (.allSc .positive) x y).trans (by simp [Cst.sat]; exact fun _ => Iff.rfl)
theorem Rate.new_ok (x y : F64) : Rate.new x = .ok y ↔ 0 < x ∧ y = x := Scale.new_ok x y
theorem Shape.new_ok (x y : F64) : Shape.new x = .ok y ↔ 0 < x ∧ y = x := Scale.new_ok x y
theorem DOF.new_ok (x y : F64) : DOF.new x = .ok y ↔ 0 < x ∧ y = x := Scale.new_ok x y
theorem Shape.newU_ok (x y : ℕ) : Shape.newU x = .ok y ↔ 0 < x ∧ y = x := by
  exact (newE_ok (t := .sc .usize) (.allSc .positive) x y).trans (by simp [Cst.sat]; exact fun _ => Iff.rfl)
theorem DOF.newU_ok (x y : ℕ) : DOF.newU x = .ok y ↔ 0 < x ∧ y = x := Shape.newU_ok x y
theorem Scale.newI_ok (x y : ℤ) : Scale.newI x = .ok y ↔ 0 < x ∧ y = x := by
  exact (newE_ok (t := .sc .i64) (.allSc .positive) x y).trans (by simp [Cst.sat]; exact fun _ => Iff.rfl)
theorem Count.newU_ok (x y : ℕ) : Count.newU x = .ok y ↔ y = x := by
  refine (newE_ok (t := .sc .usize) (.allSc .nonNegative) x y).trans ?_
  simp only [Cst.sat, decide_eq_true_eq]; exact and_iff_right (Nat.zero_le _)
theorem Corr.new_ok (x y : F64) : Corr.new x = .ok y ↔ (F64.fin (-1) ≤ x ∧ x ≤ 1) ∧ y = x := by
  exact (newE_ok (t := Ty.f64) (.allSc (.interval (s := .f64) (F64.fin (-1)) (F64.fin 1))) x y).trans
    (by simp [Cst.sat]; exact fun _ => Iff.rfl)
theorem Probability.newE_ok (p : F64) (q : Probability) : Probability.newE p = .ok q ↔ (0 ≤ p ∧ p ≤ 1) ∧ q = ⟨p⟩ := by
  unfold Probability.newE; rw [mapError_ok_iff]; unfold Probability.new
  split <;> simp_all [eq_comm]

theorem exc_bind_ok {ε α β : Type} (x : Except ε α) (f : α → Except ε β) (b : β) :
    (x >>= f) = .ok b ↔ ∃ a, x = .ok a ∧ f a = .ok b := by
  cases x with
  | error e => constructor
               · intro h; cases h
               · rintro ⟨a, h, _⟩; cases h
  | ok a => constructor
            · intro h; exact ⟨a, rfl, h⟩
            · rintro ⟨a', h, h'⟩; cases h; exact h'
theorem Loc.new_ok (x y : F64) : Loc.new x = .ok y ↔ y = x := by rw [Loc.new_eq]; simp [eq_comm]
theorem Covariance.isotropic_ok (x y : F64) : Covariance.isotropic x = .ok y ↔ 0 < x ∧ y = x :=
  (newE_ok (t := Ty.f64) (.positive (s := .f64)) x y).trans (by simp [Cst.sat]; exact fun _ => Iff.rfl)

theorem Scale.new_pos {x : F64} (h : 0 < x) : Scale.new x = .ok x := (Scale.new_ok x x).2 ⟨h, rfl⟩
theorem Rate.new_pos {x : F64} (h : 0 < x) : Rate.new x = .ok x := (Scale.new_ok x x).2 ⟨h, rfl⟩
theorem Shape.new_pos {x : F64} (h : 0 < x) : Shape.new x = .ok x := (Scale.new_ok x x).2 ⟨h, rfl⟩

end Rstat
