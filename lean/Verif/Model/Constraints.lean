import Verif.Model.Probability

/-! Model of /repo/src/params/constraints.rs: a deep embedding of the constraint types, so that
"any nesting of constraints" is a quantification over a Lean inductive type. -/
namespace Rstat
open Classical

/-- scalar types for which `All<C>: Constraint<_>` is implemented (src/params/constraints.rs:164-189) -/
inductive Sc where
  | f64 | i64 | usize

/-- value types a constraint can be asked about: scalars, `Vec<T>`, `[T; N]` -/
inductive Ty where
  | sc (s : Sc)
  | vec (t : Ty)
  | arr (n : ℕ) (t : Ty)

/-- Rust values of a type; machine integers are embedded in ℤ / ℕ (constraints only compare) -/
@[reducible] def Ty.Val : Ty → Type
  | .sc .f64 => F64
  | .sc .i64 => ℤ
  | .sc .usize => ℕ
  | .vec t => List t.Val
  | .arr n t => Fin n → t.Val

/-- `PartialOrd::lt` on scalars -/
def Sc.lt : (s : Sc) → (Ty.sc s).Val → (Ty.sc s).Val → Prop
  | .f64, a, b => F64.lt a b
  | .i64, a, b => Int.lt a b
  | .usize, a, b => Nat.lt a b
/-- `PartialOrd::le` on scalars -/
def Sc.le : (s : Sc) → (Ty.sc s).Val → (Ty.sc s).Val → Prop
  | .f64, a, b => F64.le a b
  | .i64, a, b => Int.le a b
  | .usize, a, b => Nat.le a b
/-- `PartialEq::eq` on scalars -/
def Sc.eq : (s : Sc) → (Ty.sc s).Val → (Ty.sc s).Val → Prop
  | .f64, a, b => F64.feq a b
  | .i64, a, b => @Eq ℤ a b
  | .usize, a, b => @Eq ℕ a b
/-- `num::zero()` -/
noncomputable def Sc.zero : (s : Sc) → (Ty.sc s).Val
  | .f64 => F64.fin 0
  | .i64 => (0 : ℤ)
  | .usize => (0 : ℕ)

/-- The constraint types of src/params/constraints.rs at each value type. Simplification: `Equal`/`LessThan`/... are
given on scalars only (Rust also allows them on anything `PartialOrd`, the crate never does). -/
inductive Cst : Ty → Type where
  /-- :293-301 -/
  | equal {s : Sc} (b : (Ty.sc s).Val) : Cst (.sc s)
  /-- :304-312 -/
  | lessThan {s : Sc} (b : (Ty.sc s).Val) : Cst (.sc s)
  /-- :315-317 -/
  | negative {s : Sc} : Cst (.sc s)
  /-- :320-330 -/
  | lessThanOrEqual {s : Sc} (b : (Ty.sc s).Val) : Cst (.sc s)
  /-- :333-335 -/
  | nonPositive {s : Sc} : Cst (.sc s)
  /-- :338-346 -/
  | greaterThan {s : Sc} (b : (Ty.sc s).Val) : Cst (.sc s)
  /-- :349-351 -/
  | positive {s : Sc} : Cst (.sc s)
  /-- :354-364 -/
  | greaterThanOrEqual {s : Sc} (b : (Ty.sc s).Val) : Cst (.sc s)
  /-- :367-380 -/
  | interval {s : Sc} (lb ub : (Ty.sc s).Val) : Cst (.sc s)
  /-- :383-385 -/
  | nonNegative {s : Sc} : Cst (.sc s)
  /-- :388-390 (`PrimInt` only) -/
  | naturalI : Cst (.sc .i64)
  | naturalU : Cst (.sc .usize)
  /-- :232-240 -/
  | not {t : Ty} (c : Cst t) : Cst t
  /-- :243-265 -/
  | or {t : Ty} (c1 c2 : Cst t) : Cst t
  /-- :268-290 -/
  | and {t : Ty} (c1 c2 : Cst t) : Cst t
  /-- :128-130 -/
  | box {t : Ty} (c : Cst t) : Cst t
  /-- :164-189 -/
  | allSc {s : Sc} (c : Cst (.sc s)) : Cst (.sc s)
  /-- :191-209 -/
  | allVec {t : Ty} (c : Cst t) : Cst (.vec t)
  /-- :211-229 -/
  | allArr {t : Ty} {n : ℕ} (c : Cst t) : Cst (.arr n t)
  /-- :399-401 -/
  | emptyArr {t : Ty} {n : ℕ} : Cst (.arr n t)
  /-- :403-405 -/
  | emptyVec {t : Ty} : Cst (.vec t)
  /-- :408-416 -/
  | square {t : Ty} {n : ℕ} : Cst (.arr n (.arr n t))

/-- src/params/constraints.rs:41-45 `UnsatisfiedConstraintError<T>` -/
structure UCE (t : Ty) where
  value : t.Val
  target : Option String
  constraint : Cst t

/-- src/params/constraints.rs:56-62 `UnsatisfiedConstraintError::new` -/
def UCE.new {t : Ty} (value : t.Val) (constraint : Cst t) : UCE t := ⟨value, none, constraint⟩
/-- src/params/constraints.rs:64-70 `with_target` -/
def UCE.withTarget {t : Ty} (e : UCE t) (target : String) : UCE t := ⟨e.value, some target, e.constraint⟩

namespace Cst

/-- `is_satisfied_by` of every constraint type (line numbers at the constructors of `Cst`) -/
noncomputable def sat : {t : Ty} → Cst t → t.Val → Bool
  | _, @equal s b, v => decide (s.eq v b)
  | _, @lessThan s b, v => decide (s.lt v b)
  | _, @negative s, v => decide (s.lt v s.zero)
  | _, @lessThanOrEqual s b, v => decide (s.le v b)
  | _, @nonPositive s, v => decide (s.le v s.zero)
  | _, @greaterThan s b, v => decide (s.lt b v)
  | _, @positive s, v => decide (s.lt s.zero v)
  | _, @greaterThanOrEqual s b, v => decide (s.le b v)
  | _, @interval s lb ub, v => decide (s.le lb v) && decide (s.le v ub)
  | _, @nonNegative s, v => decide (s.le s.zero v)
  | _, naturalI, v => decide (Sc.lt .i64 (Sc.zero .i64) v)
  | _, naturalU, v => decide (Sc.lt .usize (Sc.zero .usize) v)
  | _, not c, v => !(sat c v)
  | _, or c1 c2, v => sat c1 v || sat c2 v
  | _, and c1 c2, v => sat c1 v && sat c2 v
  | _, box c, v => sat c v
  | _, allSc c, v => sat c v
  | _, @allVec t c, v => List.all (α := t.Val) v (fun x => sat c x)
  | _, @allArr t n c, v => (List.finRange n).all (fun i => sat c (v i))
  | _, @emptyArr _ n, _ => decide (n > 0)
  | _, @emptyVec t, v => decide (List.length (α := t.Val) v = 0)
  | _, square, _ => true

/-- the early-return `for` loop of `All::check` (src/params/constraints.rs:197-203, 217-223): `p` is the inner
`is_satisfied_by`, `bad`/`good` the two return values -/
def loop {α ε β : Type} (p : α → Bool) (bad : ε) (good : β) : List α → Except ε β
  | [] => .ok good
  | v :: vs => if !(p v) then .error bad else loop p bad good vs

/-- the default `check`, src/params/constraints.rs:113-123 -/
noncomputable def defaultCheck {t : Ty} (c : Cst t) (v : t.Val) : Except (UCE t) t.Val :=
  if c.sat v then .ok v else .error (UCE.new v c)

/-- `check` of every constraint type: overridden for `All`, `Or`, `And`, default otherwise -/
noncomputable def check : {t : Ty} → Cst t → t.Val → Except (UCE t) t.Val
  | _, or c1 c2, v =>
    match check c1 v with
    | .ok w => .ok w
    | .error e => check c2 e.value
  | _, and c1 c2, v =>
    match check c1 v with
    | .ok w => check c2 w
    | .error e => .error e
  | _, allSc c, v => check c v
  | _, @allVec t c, v => loop (α := t.Val) (fun x => sat c x) (UCE.new v (allVec c)) v v
  | _, @allArr t n c, v => loop (fun x => sat c x) (UCE.new v (allArr c)) v ((List.finRange n).map v)
  | _, c, v => defaultCheck c v

end Cst
end Rstat
