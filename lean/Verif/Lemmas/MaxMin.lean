import Verif.Model.Dist.GammaFamily
import Verif.Lemmas.Constraints

/-! `f64::max` / `min` on finite values, and `assert_constraint!(a == b)`. -/
namespace Rstat
open F64

open Classical in
theorem F64.Is.max {a b : F64} {r s : ℝ} (ha : a.Is r) (hb : b.Is s) : (F64.max a b).Is (Max.max r s) := by
  have key : ∀ c : F64, c = (if a < b then b else a) → c.Is (Max.max r s) := by
    rintro c rfl
    split_ifs with c
    · rw [max_eq_right ((ha.lt_iff hb).1 c).le]; exact hb
    · rw [max_eq_left (not_lt.1 fun h => c ((ha.lt_iff hb).2 h))]; exact ha
  rcases ha with rfl | ⟨rfl, rfl⟩ <;> rcases hb with rfl | ⟨rfl, rfl⟩ <;> exact key _ rfl

open Classical in
theorem F64.Is.min {a b : F64} {r s : ℝ} (ha : a.Is r) (hb : b.Is s) : (F64.min a b).Is (Min.min r s) := by
  have key : ∀ c : F64, c = (if b < a then b else a) → c.Is (Min.min r s) := by
    rintro c rfl
    split_ifs with c
    · rw [min_eq_right ((hb.lt_iff ha).1 c).le]; exact hb
    · rw [min_eq_left (not_lt.1 fun h => c ((hb.lt_iff ha).2 h))]; exact ha
  rcases ha with rfl | ⟨rfl, rfl⟩ <;> rcases hb with rfl | ⟨rfl, rfl⟩ <;> exact key _ rfl

theorem assertEqF_ok (a b x : F64) : assertEqF a b = .ok x ↔ a.feq b ∧ x = a := by
  unfold assertEqF
  rw [mapError_ok_iff]
  refine (Cst.check_ok_iff (t := .sc .f64) (.equal (s := .f64) b) a x).trans ?_
  simp only [Cst.sat, decide_eq_true_eq]
  exact Iff.rfl

theorem assertEqU_ok (a b x : ℕ) : assertEqU a b = .ok x ↔ a = b ∧ x = a := by
  unfold assertEqU
  rw [mapError_ok_iff]
  refine (Cst.check_ok_iff (t := .sc .usize) (.equal (s := .usize) b) a x).trans ?_
  simp only [Cst.sat, decide_eq_true_eq]
  exact Iff.rfl
end Rstat
