import Verif.Float.Lemmas
import Mathlib.MeasureTheory.Integral.IntervalIntegral.Basic
import Mathlib.MeasureTheory.Integral.IntervalIntegral.FundThmCalculus

/-! An instance of exact arithmetic: shows `FP.Exact` (hence every theorem assuming it) is not vacuous. -/
namespace Rstat
open MeasureTheory

namespace Spec

theorem erf_intervalIntegrable (a b : ℝ) :
    IntervalIntegrable (fun t : ℝ => Real.exp (-t ^ 2)) volume a b :=
  Continuous.intervalIntegrable (by fun_prop) _ _

theorem erf_strictMono : StrictMono erf := by
  intro x y hxy
  have h1 : (∫ t in (0:ℝ)..y, Real.exp (-t ^ 2)) - (∫ t in (0:ℝ)..x, Real.exp (-t ^ 2))
      = ∫ t in x..y, Real.exp (-t ^ 2) :=
    intervalIntegral.integral_interval_sub_left (erf_intervalIntegrable _ _) (erf_intervalIntegrable _ _)
  have h2 : 0 < ∫ t in x..y, Real.exp (-t ^ 2) :=
    intervalIntegral.intervalIntegral_pos_of_pos (erf_intervalIntegrable _ _)
      (fun t => Real.exp_pos _) hxy
  unfold erf
  have : 0 < 2 / √Real.pi := by positivity
  nlinarith

theorem Phi_strictMono : StrictMono Phi := by
  intro x y hxy
  unfold Phi
  have : erf (x / √2) < erf (y / √2) := erf_strictMono (by gcongr)
  linarith

theorem Phi_injective : Function.Injective Phi := Phi_strictMono.injective

end Spec

/-- exact real arithmetic -/
@[reducible] noncomputable def exactFP : FP where
  rnd := id
  huge := fun _ => False
  fexp := Real.exp
  fln := Real.log
  flog2 := Real.logb 2
  fsin := Real.sin
  fcos := Real.cos
  ftan := Real.tan
  fatan := Real.arctan
  fasin := Real.arcsin
  fpow := fun x y => x ^ y
  sErf := fun a => F64.fin (Spec.erf a.toReal)
  sErfc := fun a => F64.fin (1 - Spec.erf a.toReal)
  sGamma := fun a => F64.fin (Real.Gamma a.toReal)
  sLogGamma := fun a => F64.fin (Real.log (Real.Gamma a.toReal))
  sDigamma := fun a => F64.fin (Spec.digamma a.toReal)
  sBeta := fun a b => F64.fin (Spec.Beta a.toReal b.toReal)
  sLogBeta := fun a b => F64.fin (Real.log (Spec.Beta a.toReal b.toReal))
  sGammainc := fun a x => F64.fin (Spec.gammaP a.toReal x.toReal)
  sBetainc := fun x a b => F64.fin (Spec.betaI x.toReal a.toReal b.toReal)
  sNorm := fun a => F64.fin (Spec.Phi a.toReal)
  sNormInv := fun a => F64.fin (Function.invFun Spec.Phi a.toReal)
  sHyp2f1 := fun a b c x => F64.fin (Spec.hyp2f1 a.toReal b.toReal c.toReal x.toReal)
  sZeta := fun a => F64.fin (Spec.zeta a.toReal)

/-- `FP.Exact` is inhabited. -/
theorem exactFP_exact : @FP.Exact exactFP := by
  let _ := exactFP
  refine { rnd_id := fun _ => rfl, no_huge := fun _ h => h, exp_eq := fun _ => rfl, ln_eq := fun _ => rfl,
           log2_eq := fun _ => rfl, sin_eq := fun _ => rfl, cos_eq := fun _ => rfl, tan_eq := fun _ => rfl,
           atan_eq := fun _ => rfl, asin_eq := fun _ => rfl, pow_eq := fun _ _ => rfl,
           erf_eq := ?_, erfc_eq := ?_, gamma_eq := ?_, loggamma_eq := ?_, zeta_eq := ?_, digamma_eq := ?_, beta_eq := ?_,
           logbeta_eq := ?_, gammainc_eq := ?_, betainc_eq := ?_, hyp2f1_eq := ?_, norm_eq := ?_, normInv_eq := ?_ }
  · intro a r h; exact Or.inl (by have e := h.toReal_eq; subst e; rfl)
  · intro a r h; exact Or.inl (by have e := h.toReal_eq; subst e; rfl)
  · intro a r h _; exact Or.inl (by have e := h.toReal_eq; subst e; rfl)
  · intro a r h _; exact Or.inl (by have e := h.toReal_eq; subst e; rfl)
  · intro a r h _; exact Or.inl (by have e := h.toReal_eq; subst e; rfl)
  · intro a r h _; exact Or.inl (by have e := h.toReal_eq; subst e; rfl)
  · intro a b r s h h' _ _; exact Or.inl (by have e := h.toReal_eq; have e' := h'.toReal_eq; subst e e'; rfl)
  · intro a b r s h h' _ _; exact Or.inl (by have e := h.toReal_eq; have e' := h'.toReal_eq; subst e e'; rfl)
  · intro a b r s h h' _ _; exact Or.inl (by have e := h.toReal_eq; have e' := h'.toReal_eq; subst e e'; rfl)
  · intro x a b t r s h h' h'' _ _ _ _; exact Or.inl (by have e := h.toReal_eq; have e' := h'.toReal_eq; have e'' := h''.toReal_eq; subst e e' e''; rfl)
  · intro a b c x p q r z h h' h'' h3 _ _ _; exact Or.inl (by have e := h.toReal_eq; have e' := h'.toReal_eq; have e'' := h''.toReal_eq; have e3 := h3.toReal_eq; subst e e' e'' e3; rfl)
  · intro a r h; exact Or.inl (by have e := h.toReal_eq; subst e; rfl)
  · intro a z h
    refine Or.inl ?_
    show F64.fin (Function.invFun Spec.Phi a.toReal) = F64.fin z
    rw [h.toReal_eq, Function.leftInverse_invFun Spec.Phi_injective]

end Rstat
