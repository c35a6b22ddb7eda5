import Verif.Model.Constraints

/-! Model of /repo/src/params/{mod,corr,concentrations}.rs and the covariance parameters of
/repo/src/normal/mod.rs. A parameter newtype `Scale<T>(T)` is represented by its value. -/
namespace Rstat
open Classical

/-- `failure::Error` as it arises from constructors -/
inductive Err where
  | uce (t : Ty) (e : UCE t)
  | prob (e : InvalidProbabilityError)
  | simplex (e : SimplexError)

abbrev Ty.f64 : Ty := .sc .f64

/-- The parameter types declared with `param!` (src/params/mod.rs:189-199) and `Corr` (src/params/corr.rs:12) at
scalar types. -/
inductive ParamKind : Ty → Type where
  /-- src/params/mod.rs:189 -/
  | loc {t : Ty} : ParamKind t
  /-- src/params/mod.rs:191 -/
  | scale {s : Sc} : ParamKind (.sc s)
  /-- src/params/mod.rs:193 -/
  | rate {s : Sc} : ParamKind (.sc s)
  /-- src/params/mod.rs:195 -/
  | shape {s : Sc} : ParamKind (.sc s)
  /-- src/params/mod.rs:197 -/
  | dof {s : Sc} : ParamKind (.sc s)
  /-- src/params/mod.rs:199 -/
  | count {s : Sc} : ParamKind (.sc s)
  /-- src/params/corr.rs:12 -/
  | corr : ParamKind Ty.f64

/-- the `$cst_build` of each `param!` (none for `Loc`): src/params/mod.rs:189-199, src/params/corr.rs:16 -/
noncomputable def ParamKind.cst : {t : Ty} → ParamKind t → Option (Cst t)
  | _, .loc => none
  | _, .scale => some (.allSc .positive)
  | _, .rate => some (.allSc .positive)
  | _, .shape => some (.allSc .positive)
  | _, .dof => some (.allSc .positive)
  | _, .count => some (.allSc .nonNegative)
  | _, .corr => some (.allSc (.interval (s := .f64) (F64.fin (-1)) (F64.fin 1)))

/-- `new` of a parameter type: src/params/mod.rs:89-94 (`Loc`), :108-113 (constrained), src/params/corr.rs:15-17 -/
noncomputable def ParamKind.new {t : Ty} (k : ParamKind t) (v : t.Val) : Except (UCE t) t.Val :=
  match k.cst with
  | none => .ok v
  | some c => c.check v

/-- one argument of a generated `Params::new`: its parameter type and the value passed -/
structure FieldArg where
  t : Ty
  kind : ParamKind t
  arg : t.Val

/-- the `Params::new` generated by `params!` (src/params/mod.rs:136-140): field initialisers are evaluated in
declaration order, each followed by `?` -/
noncomputable def paramsNew : List FieldArg → Except Err (List (Σ t : Ty, t.Val))
  | [] => .ok []
  | f :: fs =>
    match f.kind.new f.arg with
    | .error e => .error (.uce f.t e)
    | .ok v =>
      match paramsNew fs with
      | .error e => .error e
      | .ok vs => .ok (⟨f.t, v⟩ :: vs)

/-! Scalar constructors as used by the distribution modules (the `?` turns the error into `failure::Error`) -/

/-- src/params/mod.rs:189 -/
noncomputable def Loc.new (x : F64) : Except Err F64 := (ParamKind.loc (t := Ty.f64)).new x |>.mapError (.uce _)
/-- src/params/mod.rs:191 -/
noncomputable def Scale.new (x : F64) : Except Err F64 := (ParamKind.scale (s := .f64)).new x |>.mapError (.uce _)
/-- src/params/mod.rs:193 -/
noncomputable def Rate.new (x : F64) : Except Err F64 := (ParamKind.rate (s := .f64)).new x |>.mapError (.uce _)
/-- src/params/mod.rs:195 -/
noncomputable def Shape.new (x : F64) : Except Err F64 := (ParamKind.shape (s := .f64)).new x |>.mapError (.uce _)
/-- src/params/mod.rs:197 -/
noncomputable def DOF.new (x : F64) : Except Err F64 := (ParamKind.dof (s := .f64)).new x |>.mapError (.uce _)
/-- src/params/mod.rs:195 at `usize` (Erlang's shape) -/
noncomputable def Shape.newU (x : ℕ) : Except Err ℕ := (ParamKind.shape (s := .usize)).new x |>.mapError (.uce _)
/-- src/params/mod.rs:197 at `usize` (Chi, ChiSq, FDist) -/
noncomputable def DOF.newU (x : ℕ) : Except Err ℕ := (ParamKind.dof (s := .usize)).new x |>.mapError (.uce _)
/-- src/params/mod.rs:191 at `i64` (`Uniform<i64>`) -/
noncomputable def Scale.newI (x : ℤ) : Except Err ℤ := (ParamKind.scale (s := .i64)).new x |>.mapError (.uce _)
/-- src/params/mod.rs:199 at `usize` -/
noncomputable def Count.newU (x : ℕ) : Except Err ℕ := (ParamKind.count (s := .usize)).new x |>.mapError (.uce _)
/-- src/params/corr.rs:15-17 -/
noncomputable def Corr.new (x : F64) : Except Err F64 := ParamKind.corr.new x |>.mapError (.uce _)
/-- `Probability::new(p)?` -/
noncomputable def Probability.newE (p : F64) : Except Err Probability := (Probability.new p).mapError .prob
/-- `SimplexVector::new(ps)?` -/
noncomputable def SimplexVector.newE [FP] (ps : List F64) : Except Err SimplexVector :=
  (SimplexVector.new ps).mapError .simplex

/-- src/params/concentrations.rs:21-29 `Concentrations::new` -/
noncomputable def Concentrations.new {n : ℕ} (v : Fin n → F64) : Except Err (Fin n → F64) :=
  (match (Cst.allArr (t := Ty.f64) (n := n) .positive).check v with
   | .error e => .error e
   | .ok w => (Cst.not (Cst.emptyArr (t := Ty.f64) (n := n))).check w : Except (UCE (.arr n Ty.f64)) _).mapError (.uce _)

/-- src/params/concentrations.rs:39-44 `Param::constraints` of `Concentrations` -/
def Concentrations.constraints (n : ℕ) : List (Cst (.arr n Ty.f64)) := [.not .emptyArr, .allArr .positive]

/-- src/normal/mod.rs:33-40 `Covariance::matrix` -/
noncomputable def Covariance.matrix {n : ℕ} (S : Fin n → Fin n → F64) : Except Err (Fin n → Fin n → F64) :=
  ((Cst.and (Cst.square (t := Ty.f64) (n := n)) (.allArr (.allArr .nonNegative))).check S).mapError (.uce _)

/-- src/normal/mod.rs:50-55 `Param::constraints` of a matrix covariance (inconsistent with `matrix`) -/
def Covariance.matrixConstraints (n : ℕ) : List (Cst (.arr n (.arr n Ty.f64))) :=
  [.square, .allArr (.allArr .positive)]

/-- src/normal/mod.rs:71-75 `Covariance::diagonal`; :141-145 `paired` is the case n = 2 -/
noncomputable def Covariance.diagonal {n : ℕ} (v : Fin n → F64) : Except Err (Fin n → F64) :=
  ((Cst.allArr (t := Ty.f64) (n := n) .positive).check v).mapError (.uce _)

/-- src/normal/mod.rs:108-113 `Covariance::bivariate` -/
noncomputable def Covariance.bivariate (v : Fin 2 → F64) (rho : F64) : Except Err ((Fin 2 → F64) × F64) :=
  match (Cst.allArr (t := Ty.f64) (n := 2) .positive).check v with
  | .error e => .error (.uce _ e)
  | .ok w =>
    match (Cst.interval (s := .f64) (F64.fin (-1)) (F64.fin 1)).check rho with
    | .error e => .error (.uce _ e)
    | .ok r => .ok (w, r)

/-- src/normal/mod.rs:159-161 `Covariance::isotropic` -/
noncomputable def Covariance.isotropic (x : F64) : Except Err F64 :=
  ((Cst.positive (s := .f64)).check x).mapError (.uce _)

end Rstat
