import Verif.Model.Traits
import Verif.Model.Dist.IntCast

/-! Model of /repo/src/univariate/categorical.rs (`Display`: Model/Display; serde: Model/Dist/Serde). The const generic `N` is the
length of the weight list. -/
namespace Rstat
open Classical

/-- src/univariate/categorical.rs:12-14,33 `Categorical<N>(Params { ps })` -/
@[ext] structure Categorical where
  ps : SimplexVector

namespace Categorical
variable [FP]
/-- src/univariate/categorical.rs:36-38 `new` with :17-21 `Params::new` -/
noncomputable def new (ps : List F64) : Except Err Categorical := do
  let ps ← SimplexVector.newE ps
  .ok ⟨ps⟩
/-- src/univariate/categorical.rs:40 `new_unchecked` -/
def newUnchecked (ps : List F64) : Categorical := ⟨SimplexVector.newUnchecked ps⟩
variable (d : Categorical)
/-- src/univariate/categorical.rs:42 `n_categories` -/
def nCategories : ℕ := d.ps.ps.length
/-- src/univariate/categorical.rs:55 `params` -/
def params : SimplexVector := d.ps
/-- src/univariate/categorical.rs:53 `support`: the closed integer interval between (`N + 1` is a const expression) -/
def support : ℕ × ℕ := (0, d.ps.ps.length + 1)
/-- src/univariate/categorical.rs:57-59 `cdf` -/
noncomputable def cdf (x : ℕ) : Probability := Probability.newUnchecked (F64.sum (d.ps.ps.take x))
/-- src/univariate/categorical.rs:61 `sample` -/
noncomputable def sample {σ : Type} (pr : Profile) (g : Rng σ) (s : σ) : Except Panic ℕ × σ := d.ps.sampleIndex pr g s
/-- src/univariate/categorical.rs:65-73 `pmf` -/
def pmf (i : ℕ) : Except Panic Probability :=
  match d.ps.ps[i]? with
  | none => .error .explicit
  | some p => .ok (Probability.newUnchecked p)
/-- one step of the fold of `modes`, src/univariate/categorical.rs:83-101: `(modes, pmax)` and `(j, p)` -/
noncomputable def modesStep (acc : List ℕ × F64) (jp : ℕ × F64) : Except Panic (List ℕ × F64) :=
  match jp.2.partialCmp acc.2 with
  | some .lt => .ok acc
  | some .eq => .ok (acc.1 ++ [jp.1], acc.2)
  | some .gt => .ok ((acc.1.take 1).set 0 jp.1, jp.2)
  | none => .error .explicit
/-- src/univariate/categorical.rs:77-103 `modes`: `enumerate().skip(1).fold((vec![0], ps[0]), ...)` -/
noncomputable def modes : Except Panic (List ℕ) :=
  match d.ps.ps with
  | [] => .error .index
  | p0 :: _ => do
    let r ← ((d.ps.ps.zipIdx.map fun x => (x.2, x.1)).drop 1).foldlM modesStep ([0], p0)
    .ok r.1
end Categorical
end Rstat
