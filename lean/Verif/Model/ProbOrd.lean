import Verif.Model.Probability
import Verif.Model.Dist.IntCast

/-! Model of the comparisons of /repo/src/probability.rs: the derived `PartialEq`, `PartialOrd`, `Default` (:22) and `PartialEq<f64>` (:158-160). -/
namespace Rstat.Probability
/-- src/probability.rs:22 derived `PartialEq`: compares the wrapped f64 -/
def eq (p q : Probability) : Prop := p.val.feq q.val
/-- src/probability.rs:22 derived `PartialOrd`: compares the wrapped f64 -/
noncomputable def partialCmp (p q : Probability) : Option Ordering := p.val.partialCmp q.val
/-- src/probability.rs:22 derived `Default`: `f64::default()` -/
noncomputable def default : Probability := ⟨F64.fin 0⟩
/-- src/probability.rs:158-160 `PartialEq<f64>` -/
def eqF (p : Probability) (x : F64) : Prop := p.val.feq x
end Rstat.Probability
