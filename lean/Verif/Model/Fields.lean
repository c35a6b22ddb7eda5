import Verif.Model.Mixture
import Verif.Model.Multi

/-! Model of the assignments a client of the crate can make to *public fields* of an already built distribution. Only two distribution
types expose fields beside values cached at construction: `Mixture` (src/mixture.rs:58-67, `pub weights`, `pub components`, private
`support`) and `Dirichlet` (src/multivariate/dirichlet.rs:16-22, `pub alphas`, private `alpha0`, `ln_beta_alphas`, `alphas_normed`).
An assignment writes one field and nothing else; there is no setter in the crate that would recompute the others. -/
namespace Rstat

/-- an assignment by a client: `m.weights = w` or `m.components = cs`, src/mixture.rs:59,63. The const generic `N` makes the new value
as long as the old one (`Mixture.Fitting`). -/
inductive MixtureAssign (C : Type) where
  | weights (w : SimplexVector)
  | components (cs : List C)

namespace Mixture
variable {C S : Type}
/-- effect of an assignment on the struct of src/mixture.rs:58-67 -/
def assign (m : Mixture C S) : MixtureAssign C → Mixture C S
  | .weights w => { m with weights := w }
  | .components cs => { m with components := cs }
/-- effect of a sequence of assignments -/
def assigns (m : Mixture C S) (l : List (MixtureAssign C)) : Mixture C S := l.foldl assign m
/-- the assigned arrays have the length `N` of the type -/
def Fitting (N : ℕ) : MixtureAssign C → Prop
  | .weights w => w.ps.length = N
  | .components cs => cs.length = N
end Mixture

/-- effect of `d.alphas = Concentrations(a)` (or `d.alphas.0 = a`; both fields are `pub`: src/multivariate/dirichlet.rs:17,
src/params/concentrations.rs:17) -/
def Dirichlet.setAlphas {n : ℕ} (d : Dirichlet n) (a : Fin n → F64) : Dirichlet n := { d with alphas := a }

end Rstat
