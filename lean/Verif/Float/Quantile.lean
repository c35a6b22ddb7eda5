import Verif.Float.Libm
import Verif.Float.Binary64
import Verif.Lemmas.Gaussian
import Verif.Lemmas.FloatMono

/-! Contract for the two functions only `quantile` uses: `tan` on its principal branch and `special_fun`'s `norm_inv` are
monotone and exact at the centre. No accuracy is assumed. It is met by correctly rounded binary64 (`B64.quantileFns`). -/
namespace Rstat
open F64

/-- monotonicity of `f64::tan` between the poles and of `norm_inv` between 0 and 1 -/
class FP.QuantileFns [FP] : Prop where
  tan_mono : ∀ x y : ℝ, -(Real.pi / 2) < x → x ≤ y → y < Real.pi / 2 → FP.ftan x ≤ FP.ftan y
  tan_zero : FP.ftan 0 = 0
  normInv_mono : ∀ p q : F64, 0 < p → p ≤ q → q < 1 → F64.normInv p ≤ F64.normInv q
  normInv_half : (F64.normInv (fin (1 / 2))).Is 0

theorem invPhi_mono {p q : ℝ} (h0 : 0 < p) (h : p ≤ q) (h1 : q < 1) : Function.invFun Spec.Phi p ≤ Function.invFun Spec.Phi q := by
  have e1 := Function.invFun_eq (Spec.Phi_surj h0 (lt_of_le_of_lt h h1))
  have e2 := Function.invFun_eq (Spec.Phi_surj (lt_of_lt_of_le h0 h) h1)
  by_contra hc
  have := Spec.Phi_strictMono (not_le.1 hc)
  rw [e1, e2] at this; linarith

theorem tan_mono_real {x y : ℝ} (h0 : -(Real.pi / 2) < x) (h : x ≤ y) (h1 : y < Real.pi / 2) : Real.tan x ≤ Real.tan y := by
  rcases h.eq_or_lt with rfl | h
  · exact le_rfl
  · exact (Real.tan_lt_tan_of_lt_of_lt_pi_div_two h0 h1 h).le

/-- correctly rounded binary64 satisfies the contract -/
theorem B64.quantileFns : @FP.QuantileFns binary64 := by
  letI := binary64
  haveI := binary64_lawful
  refine @FP.QuantileFns.mk binary64 (fun x y => tan_mono_real) Real.tan_zero ?_ ?_
  · intro p q h0 h h1
    obtain ⟨a, b, c⟩ := is_of_le_le (l := 0) (u := 1) Is.zero Is.one (le_of_lt' (by exact h0)) (le_trans' h (le_of_lt' h1))
    obtain ⟨a', b', c'⟩ := is_of_le_le (l := 0) (u := 1) Is.zero Is.one (le_trans' (le_of_lt' h0) h) (le_of_lt' h1)
    have p0 : 0 < p.toReal := pos_of_lt h0 a
    have q1 : q.toReal < 1 := (a'.lt_iff Is.one).1 h1
    have pq : p.toReal ≤ q.toReal := (a.le_iff a').1 h
    show F64.round (Function.invFun Spec.Phi p.toReal) ≤ F64.round (Function.invFun Spec.Phi q.toReal)
    exact round_mono (invPhi_mono p0 pq q1)
  · show (F64.round (Function.invFun Spec.Phi (1 / 2))).Is 0
    have : Function.invFun Spec.Phi (1 / 2) = 0 := by
      have e := Function.invFun_eq (Spec.Phi_surj (p := 1 / 2) (by norm_num) (by norm_num))
      exact Spec.Phi_strictMono.injective (by rw [e, Spec.Phi_zero])
    rw [this]; exact round_zero_is

end Rstat
