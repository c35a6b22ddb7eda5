import Verif.Model.Basic

/-! Integer and float casts used by the discrete distributions (semantics of Rust's `as`). -/
namespace Rstat
open Classical

/-- `x as i32` for a 64-bit integer: keeps the low 32 bits, two's complement -/
def i32wrap (n : ℤ) : ℤ := (n + 2 ^ 31) % 2 ^ 32 - 2 ^ 31
/-- result of an i32 operation with exact result `n`: panics in debug, wraps in release -/
def i32chk (pr : Profile) (n : ℤ) : Except Panic ℤ :=
  if -2 ^ 31 ≤ n ∧ n < 2 ^ 31 then .ok n
  else match pr with
    | .debug => .error .overflow
    | .release => .ok (i32wrap n)

/-- `x as u64`/`x as usize` for an f64: truncation towards zero, saturating, NaN to 0 -/
noncomputable def F64.toU64 : F64 → ℕ
  | .nan => 0
  | .ninf => 0
  | .pinf => U64 - 1
  | .negZero => 0
  | .fin r => if r < 0 then 0 else Min.min ⌊r⌋₊ (U64 - 1)

/-- `f64::round`: nearest integer, halves away from zero; results in (-1/2, 0) are `-0.0` -/
noncomputable def F64.roundHalf : F64 → F64
  | .fin r => if 0 ≤ r then .fin ⌊r + 1 / 2⌋ else if ⌈r - 1 / 2⌉ = 0 then .negZero else .fin ⌈r - 1 / 2⌉
  | a => a

/-- `PartialOrd::partial_cmp` on f64: `none` iff an operand is NaN -/
noncomputable def F64.partialCmp (a b : F64) : Option Ordering :=
  if a < b then some .lt else if a.feq b then some .eq else if b < a then some .gt else none

end Rstat
