import Verif.Model.Multi

/-! Model of the constructors and accessors of /repo/src/multivariate/lognormal.rs: the type wraps a normal law `D` (dense, diagonal or
isotropic). Its density, sampling and moments are in Model/Multi.lean. -/
namespace Rstat

/-- src/multivariate/lognormal.rs:18-19 `LogNormal<N, S>(Normal<N, [f64; N], S>)` -/
@[ext] structure MvLogN (D : Type) where
  normal : D

namespace MvLogN
variable {n : ℕ}
section
variable [FP] [Lapack]
/-- src/multivariate/lognormal.rs:22-24 -/
noncomputable def new (mu : Fin n → F64) (S : Fin n → Fin n → F64) : Except Err (MvLogN (MvNormal n)) := (MvNormal.new mu S).map MvLogN.mk
/-- src/multivariate/lognormal.rs:26-28 -/
noncomputable def newUnchecked (mu : Fin n → F64) (S : Fin n → Fin n → F64) : MvLogN (MvNormal n) := ⟨MvNormal.newUnchecked mu S⟩
end
section
variable [FP]
/-- src/multivariate/lognormal.rs:32-34 -/
noncomputable def diagonal (mu S : Fin n → F64) : Except Err (MvLogN (DiagNormal n)) := (DiagNormal.new mu S).map MvLogN.mk
/-- src/multivariate/lognormal.rs:36-38 -/
noncomputable def diagonalUnchecked (mu S : Fin n → F64) : MvLogN (DiagNormal n) := ⟨DiagNormal.newUnchecked mu S⟩
/-- src/multivariate/lognormal.rs:42-44 -/
noncomputable def isotropic (mu : Fin n → F64) (s2 : F64) : Except Err (MvLogN (IsoNormal n)) := (IsoNormal.new mu s2).map MvLogN.mk
/-- src/multivariate/lognormal.rs:46-48 -/
noncomputable def isotropicUnchecked (mu : Fin n → F64) (s2 : F64) : MvLogN (IsoNormal n) := ⟨IsoNormal.newUnchecked mu s2⟩
/-- src/multivariate/lognormal.rs:50-52 -/
noncomputable def homogeneous (n : ℕ) (mu s2 : F64) : Except Err (MvLogN (IsoNormal n)) := (IsoNormal.homogeneous n mu s2).map MvLogN.mk
/-- src/multivariate/lognormal.rs:54-56 -/
noncomputable def homogeneousUnchecked (n : ℕ) (mu s2 : F64) : MvLogN (IsoNormal n) := ⟨IsoNormal.homogeneousUnchecked n mu s2⟩
/-- src/multivariate/lognormal.rs:58 -/
noncomputable def standard (n : ℕ) : Except Err (MvLogN (IsoNormal n)) := (IsoNormal.standard n).map MvLogN.mk
/-- src/multivariate/lognormal.rs:60 -/
noncomputable def standardUnchecked (n : ℕ) : MvLogN (IsoNormal n) := ⟨IsoNormal.standardUnchecked n⟩
end
/-- src/multivariate/lognormal.rs:63-65 `From<Normal>` -/
def ofNormal {D : Type} (d : D) : MvLogN D := ⟨d⟩
/-- src/multivariate/lognormal.rs:67-72 `From<Params>`, given the `From<Params>` of the wrapped law -/
def ofParams {D P : Type} (from_ : P → D) (p : P) : MvLogN D := ⟨from_ p⟩
/-- src/multivariate/lognormal.rs:83 `params`, given the `params` of the wrapped law -/
def params {D P : Type} (params_ : D → P) (d : MvLogN D) : P := params_ d.normal
end MvLogN
end Rstat
