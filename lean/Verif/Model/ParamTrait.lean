import Verif.Model.Params

/-! Model of the `Param` trait implementations of /repo: `value`, `into_value` and `constraints`. A parameter newtype is represented by the
value it wraps. A list of boxed constraints is a list of constraints; `todo!()` is a panic. -/
namespace Rstat

/-- src/params/mod.rs:11-32 `Param`: the three methods of an implementation over the newtype `P` with values `V`, and the constraint list as
the sequence of the acceptance tests it holds -/
structure ParamImpl (P V : Type) where
  value : P → V
  intoValue : P → V
  constraints : Except Panic (List (V → Bool))

/-- the tests of a list of boxed constraints -/
noncomputable def tests {t : Ty} (cs : List (Cst t)) : List (t.Val → Bool) := cs.map fun c => c.sat

/-- src/params/mod.rs:34-61 `impl_param!`: an unconstrained parameter lists nothing (:43), a constrained one the constraint it is declared
with (:56-58); src/params/corr.rs:20-33 is the same for `Corr` -/
noncomputable def ParamKind.impl {t : Ty} (k : ParamKind t) : ParamImpl t.Val t.Val :=
  ⟨fun v => v, fun v => v, .ok (tests (match k.cst with | none => [] | some c => [c]))⟩

/-- src/probability.rs:129-142 -/
noncomputable def Probability.impl : ParamImpl Probability F64 :=
  ⟨fun p => p.val, fun p => p.val, .ok (tests [Cst.interval (s := .f64) (F64.fin 0) (F64.fin 1)])⟩

/-- src/probability.rs:437-445 (`constraints` is `todo!`) -/
def SimplexVector.impl : ParamImpl SimplexVector (List F64) := ⟨fun v => v.ps, fun v => v.ps, .error .todo⟩

/-- src/params/concentrations.rs:32-45 -/
noncomputable def Concentrations.impl (n : ℕ) : ParamImpl (Fin n → F64) (Fin n → F64) :=
  ⟨fun v => v, fun v => v, .ok (tests (Concentrations.constraints n))⟩

/-- src/normal/mod.rs:43-56 -/
noncomputable def Covariance.matrixImpl (n : ℕ) : ParamImpl (Fin n → Fin n → F64) (Fin n → Fin n → F64) :=
  ⟨fun v => v, fun v => v, .ok (tests (Covariance.matrixConstraints n))⟩

/-- src/normal/mod.rs:78-90, also the paired covariance -/
noncomputable def Covariance.diagonalImpl (n : ℕ) : ParamImpl (Fin n → F64) (Fin n → F64) :=
  ⟨fun v => v, fun v => v, .ok (tests [Cst.allArr (t := Ty.f64) (n := n) .positive])⟩

/-- src/normal/mod.rs:116-124 (`constraints` is `todo!`) -/
def Covariance.bivariateImpl : ParamImpl ((Fin 2 → F64) × F64) ((Fin 2 → F64) × F64) := ⟨fun v => v, fun v => v, .error .todo⟩

/-- src/normal/mod.rs:164-172 -/
noncomputable def Covariance.isotropicImpl : ParamImpl F64 F64 := ⟨fun v => v, fun v => v, .ok (tests [Cst.positive (s := .f64)])⟩

end Rstat
